import Verif.Model.PeersSetMem
import Verif.Proofs.PeersSet
import Verif.Proofs.AMap
import Mathlib.Data.List.Nodup
import Mathlib.Data.List.Forall2

namespace Verif.PeersSetMem
open Verif.Views (Mem)

variable {α : Type} [DecidableEq α]

/-- The allocations agree with the set of ids. -/
structure Sim (m : State α) (s : PeersSet.State α) : Prop where
  cap : m.capacity = s.capacity
  up : m.upper = s.upper
  len : m.index.length = s.index.length
  nodup : m.index.Nodup
  fresh : ∀ a ∈ m.index, a < m.next
  cells : ∀ (i a : Nat) (x : α), m.index[i]? = some a → s.index[i]? = some x → m.heap.get a = some (x, 2)
  noleak : ∀ a, (m.heap.get a).isSome → a ∈ m.index
  cache : ∀ x, m.cache.get x = (s.cache.get x).bind (fun i => (m.index[i]?).map (fun a => (a, i)))
  keys : (AMap.keys m.cache).Nodup

@[simp] theorem bind_ok {β γ : Type} (x : β) (f : β → Mem γ) : (Mem.ok x >>= f) = f x := rfl
@[simp] theorem pure_ok {β : Type} (x : β) : (pure x : Mem β) = Mem.ok x := rfl

theorem Sim.push {m : State α} {s : PeersSet.State α} (h : Sim m s) (hup : s.upper = s.index.length)
    (hc : ∀ x i, s.cache.get x = some i → s.index[i]? = some x) {p : α} (v u u' : Nat) (hu : u' = u) :
    Sim (⟨m.heap.put m.next (p, 2), m.next + 1, m.cache.put p (m.next, m.upper), m.index ++ [m.next],
      m.capacity, u'⟩ : State α) ⟨v, s.cache.put p s.upper, s.index ++ [p], s.capacity, u⟩ := by
  have hne : ∀ a ∈ m.index, a ≠ m.next := fun a ha => Nat.ne_of_lt (h.fresh a ha)
  refine ⟨h.cap, hu, by simp [h.len], ?_, ?_, ?_, ?_, ?_, AMap.nodup_put h.keys _ _⟩
  · simp only
    rw [List.nodup_append]
    refine ⟨h.nodup, by simp, ?_⟩
    intro a ha b hb
    simp only [List.mem_singleton] at hb
    subst hb; exact hne a ha
  · intro a ha
    simp only [List.mem_append, List.mem_singleton] at ha ⊢
    rcases ha with ha | ha
    · have := h.fresh a ha; omega
    · omega
  · intro i a x ha hx
    simp only at ha hx ⊢
    by_cases hi : i < m.index.length
    · rw [List.getElem?_append_left hi] at ha
      rw [List.getElem?_append_left (h.len ▸ hi)] at hx
      rw [AMap.get_put_ne _ _ (hne a (List.mem_of_getElem? ha))]
      exact h.cells i a x ha hx
    · have hi2 : i < (m.index ++ [m.next]).length := (List.getElem?_eq_some_iff.mp ha).1
      have : i = m.index.length := by simp at hi2; omega
      subst this
      rw [h.len] at hx
      simp at ha hx
      subst ha; subst hx
      simp
  · intro a ha
    simp only at ha ⊢
    rw [AMap.get_put] at ha
    by_cases hx : a = m.next
    · subst hx; simp
    · simp only [hx, if_false] at ha
      exact List.mem_append_left _ (h.noleak a ha)
  · intro x
    simp only
    rw [AMap.get_put, AMap.get_put]
    by_cases hx : x = p
    · simp only [hx, if_true, Option.bind_some, h.up, hup]
      rw [← h.len]; simp
    · simp only [hx, if_false]
      rw [h.cache x]
      cases hg : s.cache.get x with
      | none => rfl
      | some i =>
        have hi : i < m.index.length := by
          rw [h.len]; exact (List.getElem?_eq_some_iff.mp (hc x i hg)).1
        simp only [Option.bind_some]
        rw [List.getElem?_append_left hi]

theorem Sim.skip {m : State α} {s : PeersSet.State α} (h : Sim m s) :
    Sim ({ m with next := m.next + 1 } : State α) s :=
  ⟨h.cap, h.up, h.len, h.nodup, fun a ha => Nat.lt_succ_of_lt (h.fresh a ha), h.cells, h.noleak, h.cache,
    h.keys⟩

theorem Sim.cache_none {m : State α} {s : PeersSet.State α} (h : Sim m s) {p : α}
    (hp : s.cache.get p = none) : m.cache.get p = none := by
  rw [h.cache, hp]; rfl

theorem Sim.cache_some {m : State α} {s : PeersSet.State α} (h : Sim m s)
    (hc : ∀ x i, s.cache.get x = some i → s.index[i]? = some x) {p : α} {i : Nat}
    (hp : s.cache.get p = some i) : ∃ a, m.index[i]? = some a ∧ m.cache.get p = some (a, i) := by
  have hi : i < m.index.length := by
    rw [h.len]; exact (List.getElem?_eq_some_iff.mp (hc p i hp)).1
  refine ⟨m.index[i], List.getElem?_eq_getElem hi, ?_⟩
  rw [h.cache, hp]
  simp [List.getElem?_eq_getElem hi]

theorem sim_withCapacity (c : Nat) : Sim (withCapacity c : State α) (PeersSet.withCapacity c) := by
  refine ⟨rfl, rfl, rfl, by simp [withCapacity], by simp [withCapacity], by simp [withCapacity], ?_, ?_,
    by simp [withCapacity, AMap.keys]⟩
  · intro a ha; simp [withCapacity] at ha
  · intro x; simp [withCapacity, PeersSet.withCapacity]

/-- One insertion: never undefined, and the ids are those of the set. References of members are kept, those
of others are not revived. -/
theorem insert_sim {m : State α} {s : PeersSet.State α} (hs : PeersSet.Inv s) (h : Sim m s) (p : α) :
    ∃ m', insert m p = .ok (m', (PeersSet.insert s p).2) ∧ Sim m' (PeersSet.insert s p).1 ∧
      m.next ≤ m'.next ∧
      (∀ a ∈ m'.index, a ∈ m.index ∨ a = m.next) ∧
      (∀ (i a : Nat) (x : α), m.index[i]? = some a → s.index[i]? = some x →
        (m'.index[i]? = some a ∧ (PeersSet.insert s p).1.index[i]? = some x) ∨
        (a ∉ m'.index ∧ x ∉ (PeersSet.insert s p).1.index)) := by
  have hc := fun x i => (hs.cache x i).mp
  cases hg : s.cache.get p with
  | some i =>
    obtain ⟨a, _, hm⟩ := h.cache_some hc hg
    refine ⟨{ m with next := m.next + 1 }, by simp [insert, PeersSet.insert, hg, hm], ?_, ?_, ?_, ?_⟩
    · simp only [PeersSet.insert, hg]; exact h.skip
    · exact Nat.le_succ _
    · intro a ha; exact .inl ha
    · simp only [PeersSet.insert, hg]; exact fun i a x ha hx => .inl ⟨ha, hx⟩
  | none =>
    have hm := h.cache_none hg
    have hp : p ∉ s.index := fun hc => by
      have := (hs.mem_iff p).mpr hc; simp [hg] at this
    have hne : ∀ a ∈ m.index, a ≠ m.next := fun a ha => Nat.ne_of_lt (h.fresh a ha)
    cases hi : s.index[s.upper]? with
    | none =>
      have hlen : s.index.length ≤ s.upper := List.getElem?_eq_none_iff.mp hi
      have hup : s.upper = s.index.length := by
        have := hs.up; exact hs.notfull (by omega)
      have hmi : m.index[m.upper]? = none := by
        rw [h.up, List.getElem?_eq_none_iff, h.len]; exact hlen
      have hins : insert m p = .ok (⟨AMap.put m.heap m.next (p, 2), m.next + 1,
          AMap.put m.cache p (m.next, m.upper), m.index ++ [m.next], m.capacity,
          (m.upper + 1) % m.capacity⟩, (PeersSet.insert s p).2) := by
        simp only [insert, PeersSet.insert, hg, hm, hi, hmi]
      refine ⟨_, hins, ?_, Nat.le_succ _, ?_, ?_⟩
      · simp only [PeersSet.insert, hg, hi]
        exact h.push hup hc _ _ _ (by rw [h.up, h.cap])
      · intro a ha; simpa using ha
      · intro i a x ha hx
        simp only [PeersSet.insert, hg, hi]
        refine .inl ⟨?_, ?_⟩
        · rw [List.getElem?_append_left (List.getElem?_eq_some_iff.mp ha).1]; exact ha
        · rw [List.getElem?_append_left (List.getElem?_eq_some_iff.mp hx).1]; exact hx
    | some y =>
      have hul : s.upper < s.index.length := (List.getElem?_eq_some_iff.mp hi).1
      obtain ⟨old, hold⟩ : ∃ old, m.index[m.upper]? = some old := by
        rw [h.up]; exact ⟨_, List.getElem?_eq_getElem (h.len ▸ hul)⟩
      have hold' : m.index[s.upper]? = some old := h.up ▸ hold
      have holdmem : old ∈ m.index := List.mem_of_getElem? hold
      have hyp : y ≠ p := fun e => hp (e ▸ List.mem_of_getElem? hi)
      have hcell := h.cells _ _ _ hold' hi
      have hy : s.cache.get y = some s.upper := (hs.cache _ _).mpr hi
      have hmy : m.cache.get y = some (old, m.upper) := by
        rw [h.cache, hy, h.up]; simp [hold']
      have hd : deref (AMap.put m.heap m.next (p, 2)) old = .ok y := by
        simp [deref, AMap.get_put_ne _ _ (hne old holdmem), hcell]
      have hdr1 : dropRc (AMap.put m.heap m.next (p, 2)) old
          = .ok (AMap.put (AMap.put m.heap m.next (p, 2)) old (y, 1)) := by
        simp [dropRc, AMap.get_put_ne _ _ (hne old holdmem), hcell]
      have hdr2 : dropRc (AMap.put (AMap.put m.heap m.next (p, 2)) old (y, 1)) old
          = .ok (AMap.erase (AMap.put (AMap.put m.heap m.next (p, 2)) old (y, 1)) old) := by
        simp [dropRc]
      have hpy : (AMap.put s.cache p s.upper).get y = some s.upper := by
        rw [AMap.get_put_ne _ _ hyp]; exact hy
      have hmpy : (AMap.put m.cache p (m.next, m.upper)).get y = some (old, m.upper) := by
        rw [AMap.get_put_ne _ _ hyp]; exact hmy
      have hins : insert m p = .ok (⟨AMap.erase (AMap.put (AMap.put m.heap m.next (p, 2)) old (y, 1)) old,
          m.next + 1, AMap.erase (AMap.put m.cache p (m.next, m.upper)) y, m.index.set m.upper m.next,
          m.capacity, (m.upper + 1) % m.capacity⟩, true) := by
        simp only [insert, hm, hold, hd, bind_ok, hmpy, if_true, hdr1, hdr2, pure_ok]
      have hsins : PeersSet.insert s p = (⟨s.version + 1, AMap.erase (AMap.put s.cache p s.upper) y,
          s.index.set s.upper p, s.capacity, (s.upper + 1) % s.capacity⟩, true) := by
        simp only [PeersSet.insert, hg, hi, hpy, if_true]
      have hnext : m.next ∉ m.index := fun hc => hne _ hc rfl
      have hset := PeersSet.getElem?_set_iff h.nodup hold' hnext
      have hsets := PeersSet.getElem?_set_iff hs.nodup hi hp
      have hsetmem : ∀ a, a ∈ m.index.set s.upper m.next ↔ a = m.next ∨ (a ≠ m.next ∧ a ≠ old ∧ a ∈ m.index) := by
        intro a
        rw [List.mem_iff_getElem?, List.mem_iff_getElem?]
        simp only [hset]
        constructor
        · rintro ⟨i, ⟨e, _⟩ | ⟨a1, a2, a3⟩⟩
          · exact .inl e
          · exact .inr ⟨a1, a2, i, a3⟩
        · rintro (e | ⟨a1, a2, i, a3⟩)
          · exact ⟨s.upper, .inl ⟨e, rfl⟩⟩
          · exact ⟨i, .inr ⟨a1, a2, a3⟩⟩
      rw [hsins]
      refine ⟨_, hins, ⟨h.cap, ?_, ?_, ?_, ?_, ?_, ?_, ?_, ?_⟩, Nat.le_succ _, ?_, ?_⟩
      · simp only [h.up, h.cap]
      · simp [h.len]
      · exact List.Nodup.set h.nodup hnext
      · intro a ha
        simp only [h.up] at ha ⊢
        rcases (hsetmem a).mp ha with e | ⟨_, _, e⟩
        · omega
        · have := h.fresh a e; omega
      · intro i a x ha hx
        simp only [h.up] at ha hx ⊢
        rw [hset] at ha; rw [hsets] at hx
        rcases ha with ⟨rfl, rfl⟩ | ⟨a1, a2, a3⟩
        · rcases hx with ⟨rfl, _⟩ | ⟨_, x2, x3⟩
          · rw [AMap.get_erase, if_neg (fun e => hne old holdmem e.symm),
              AMap.get_put_ne _ _ (fun e => hne old holdmem e.symm)]
            simp
          · rw [hi] at x3; cases x3; exact absurd rfl x2
        · rcases hx with ⟨_, rfl⟩ | ⟨_, _, x3⟩
          · rw [hold'] at a3; cases a3; exact absurd rfl a2
          · rw [AMap.get_erase, if_neg a2, AMap.get_put_ne _ _ a2, AMap.get_put_ne _ _ a1]
            exact h.cells i a x a3 x3
      · intro a ha
        simp only [h.up] at ha ⊢
        rw [hsetmem]
        rw [AMap.get_erase] at ha
        by_cases e : a = old
        · simp [e] at ha
        · rw [if_neg e, AMap.get_put_ne _ _ e, AMap.get_put] at ha
          by_cases e2 : a = m.next
          · exact .inl e2
          · rw [if_neg e2] at ha
            exact .inr ⟨e2, e, h.noleak a ha⟩
      · intro x
        simp only [h.up]
        rw [AMap.get_erase, AMap.get_erase]
        by_cases e : x = y
        · simp [e]
        · rw [if_neg e, if_neg e, AMap.get_put, AMap.get_put]
          by_cases e2 : x = p
          · simp only [e2, if_true, Option.bind_some]
            rw [List.getElem?_set_self (h.len ▸ hul)]; rfl
          · rw [if_neg e2, if_neg e2, h.cache x]
            cases hgx : s.cache.get x with
            | none => rfl
            | some i =>
              have hiu : s.upper ≠ i := by
                rintro rfl
                have := hc x _ hgx
                rw [hi] at this; cases this; exact e rfl
              simp only [Option.bind_some]
              rw [List.getElem?_set_ne hiu]
      · exact AMap.nodup_erase (AMap.nodup_put h.keys _ _) _
      · intro a ha
        simp only [h.up] at ha
        rcases (hsetmem a).mp ha with e | ⟨_, _, e⟩
        · exact .inr e
        · exact .inl e
      · intro i a x ha hx
        simp only [h.up]
        by_cases e : i = s.upper
        · subst e
          rw [hold'] at ha; cases ha
          rw [hi] at hx; cases hx
          refine .inr ⟨?_, ?_⟩
          · rw [hsetmem]
            rintro (e | ⟨_, e, _⟩)
            · exact hne _ holdmem e
            · exact e rfl
          · rw [List.mem_iff_getElem?]
            simp only [hsets]
            rintro ⟨_, ⟨e, _⟩ | ⟨_, e, _⟩⟩
            · exact hyp e
            · exact e rfl
        · rw [List.getElem?_set_ne (fun e' => e e'.symm), List.getElem?_set_ne (fun e' => e e'.symm)]
          exact .inl ⟨ha, hx⟩

theorem fillLoop_sim (ps : List α) : ∀ (m : State α) (s : PeersSet.State α), PeersSet.FillInv s → Sim m s →
    Sim (fillLoop m ps) (PeersSet.fillLoop s ps) := by
  induction ps with
  | nil => intro m s _ h; exact h
  | cons p ps ih =>
    intro m s hf h
    simp only [fillLoop, PeersSet.fillLoop, h.up, h.cap]
    by_cases hge : s.upper ≥ s.capacity
    · simp only [hge, if_true]; exact h
    · simp only [hge, if_false]
      have hc := fun x i => (hf.cache x i).mp
      cases hg : s.cache.get p with
      | some i =>
        obtain ⟨a, _, hm⟩ := h.cache_some hc hg
        simp only [hm]
        have := h.skip
        rw [h.up, h.cap] at this
        exact ih _ _ hf this
      | none =>
        simp only [h.cache_none hg]
        have hstep := PeersSet.fillLoop_spec [p] s hf
        simp only [PeersSet.fillLoop, hge, if_false, hg] at hstep
        refine ih _ _ hstep.1 ?_
        have := h.push (p := p) hf.up hc s.version (s.upper + 1) (m.upper + 1) (by rw [h.up])
        rw [h.up, h.cap] at this
        exact this

theorem sim_withPeers (ps : List α) (c : Nat) : Sim (withPeers ps c) (PeersSet.withPeers ps c) := by
  have hf : PeersSet.FillInv (PeersSet.withCapacity c : PeersSet.State α) := by
    refine ⟨?_, by simp [PeersSet.withCapacity], by simp [PeersSet.withCapacity],
      by simp [PeersSet.withCapacity], ?_⟩
    · simp only [PeersSet.withCapacity, PeersSet.makeCapacity]; omega
    · intro x i; simp [PeersSet.withCapacity]
  have h := fillLoop_sim ps _ _ hf (sim_withCapacity c)
  exact ⟨h.cap, by simp only [withPeers, PeersSet.withPeers, h.up, h.cap], h.len, h.nodup, h.fresh, h.cells,
    h.noleak, h.cache, h.keys⟩

theorem inserts_sim (ps : List α) : ∀ (m : State α) (s : PeersSet.State α), PeersSet.Inv s → Sim m s →
    ∃ m', inserts m ps = .ok m' ∧ Sim m' (PeersSet.extend s ps) ∧ PeersSet.Inv (PeersSet.extend s ps) ∧
      m.next ≤ m'.next := by
  induction ps with
  | nil => intro m s hs h; exact ⟨m, rfl, h, hs, Nat.le_refl _⟩
  | cons p ps ih =>
    intro m s hs h
    obtain ⟨m1, e1, h1, n1, _⟩ := insert_sim hs h p
    obtain ⟨m2, e2, h2, i2, n2⟩ := ih m1 _ (PeersSet.insert_spec hs p).1 h1
    refine ⟨m2, ?_, h2, i2, Nat.le_trans n1 n2⟩
    simp only [inserts, e1, bind_ok, e2]

/-- An address that was freed is not used again. -/
theorem dead_stays (ps : List α) : ∀ (m m' : State α) (s : PeersSet.State α), PeersSet.Inv s → Sim m s →
    ∀ a, a < m.next → a ∉ m.index → inserts m ps = .ok m' → a ∉ m'.index := by
  induction ps with
  | nil => intro m m' s _ _ a _ ha e; cases e; exact ha
  | cons p ps ih =>
    intro m m' s hs h a hlt ha e
    obtain ⟨m1, e1, h1, n1, new, _⟩ := insert_sim hs h p
    simp only [inserts, e1, bind_ok] at e
    refine ih m1 m' _ (PeersSet.insert_spec hs p).1 h1 a (by omega) ?_ e
    intro hc
    rcases new a hc with hc | hc
    · exact ha hc
    · omega

theorem kept_iff (ps : List α) : ∀ (m m' : State α) (s : PeersSet.State α), PeersSet.Inv s → Sim m s →
    ∀ (i a : Nat) (x : α), m.index[i]? = some a → s.index[i]? = some x → inserts m ps = .ok m' →
    (m'.heap.get a = some (x, 2) ∨ m'.heap.get a = none) ∧
    ((m'.heap.get a).isSome ↔ ∀ k, k ≤ ps.length → x ∈ (PeersSet.extend s (ps.take k)).index) := by
  induction ps with
  | nil =>
    intro m m' s hs h i a x ha hx e
    cases e
    have := h.cells i a x ha hx
    refine ⟨.inl this, ?_⟩
    rw [this]
    simp only [Option.isSome_some, true_iff, List.take_nil]
    intro k _; exact List.mem_of_getElem? hx
  | cons p ps ih =>
    intro m m' s hs h i a x ha hx e
    obtain ⟨m1, e1, h1, n1, new, kept⟩ := insert_sim hs h p
    have hs1 := (PeersSet.insert_spec hs p).1
    have e0 := e
    simp only [inserts, e1, bind_ok] at e
    have hk := kept i a x ha hx
    have hall : (∀ k, k ≤ (p :: ps).length → x ∈ (PeersSet.extend s ((p :: ps).take k)).index) ↔
        ∀ k, k ≤ ps.length → x ∈ (PeersSet.extend (PeersSet.insert s p).1 (ps.take k)).index := by
      constructor
      · intro hh k hkk
        exact hh (k + 1) (by simpa using hkk)
      · intro hh k hkk
        cases k with
        | zero => exact List.mem_of_getElem? hx
        | succ k => exact hh k (by simpa using hkk)
    rw [hall]
    rcases hk with ⟨ha1, hx1⟩ | ⟨ha1, hx1⟩
    · exact ih m1 m' _ hs1 h1 i a x ha1 hx1 e
    · have hdead := dead_stays ps m1 m' _ hs1 h1 a
        (Nat.lt_of_lt_of_le (h.fresh a (List.mem_of_getElem? ha)) n1) ha1 e
      obtain ⟨m2, e2, h2, _⟩ := inserts_sim ps m1 _ hs1 h1
      rw [e] at e2; cases e2
      have hnone : m'.heap.get a = none := by
        cases hg : m'.heap.get a with
        | none => rfl
        | some v => exact absurd (h2.noleak a (by simp [hg])) hdead
      refine ⟨.inr hnone, ?_⟩
      rw [hnone]
      simp only [Option.isSome_none, Bool.false_eq_true, false_iff]
      intro hh
      exact hx1 (hh 0 (Nat.zero_le _))

/-! ### Taking the set apart -/

omit [DecidableEq α] in
theorem dropAll_spec (as : List Nat) : ∀ (h : Heap α), as.Nodup →
    (∀ a ∈ as, ∃ x, h.get a = some (x, 2)) →
    ∃ h', dropAll h as = .ok h' ∧
      ∀ a, h'.get a = if a ∈ as then (h.get a).map (fun e => (e.1, 1)) else h.get a := by
  induction as with
  | nil => intro h _ _; exact ⟨h, rfl, by simp⟩
  | cons b as ih =>
    intro h hn hh
    obtain ⟨hb, hn⟩ := List.nodup_cons.mp hn
    obtain ⟨x, hx⟩ := hh b (by simp)
    have hd : dropRc h b = .ok (h.put b (x, 1)) := by simp [dropRc, hx]
    obtain ⟨h', e, hs⟩ := ih (h.put b (x, 1)) hn (by
      intro a ha
      have hab : a ≠ b := by rintro rfl; exact hb ha
      rw [AMap.get_put_ne _ _ hab]
      exact hh a (by simp [ha]))
    refine ⟨h', by simp only [dropAll, hd, bind_ok, e], ?_⟩
    intro a
    rw [hs a]
    by_cases e1 : a = b
    · subst e1; simp [hb, hx]
    · rw [AMap.get_put_ne _ _ e1]; simp [e1]

omit [DecidableEq α] in
theorem unwrapAll_spec (as : List Nat) : ∀ (h : Heap α) (ids : List α), as.Nodup →
    List.Forall₂ (fun a x => h.get a = some (x, 1)) as ids → unwrapAll h as = .ok ids := by
  induction as with
  | nil => intro h ids _ hf; cases hf; rfl
  | cons b as ih =>
    intro h ids hn' hf
    obtain ⟨hb, hn⟩ := List.nodup_cons.mp hn'
    cases hf with
    | cons h1 h2 =>
      rename_i x ids
      have : unwrapAll (h.erase b) as = .ok ids := by
        apply ih _ _ hn
        have hmem : List.Forall₂ (fun a x => a ∈ as ∧ h.get a = some (x, 1)) as ids := by
          clear ih hn hb hn'
          induction h2 with
          | nil => exact .nil
          | cons a1 a2 ih2 =>
            exact .cons ⟨by simp, a1⟩ (ih2.imp (fun _ _ e => ⟨by simp [e.1], e.2⟩))
        refine hmem.imp ?_
        rintro a y ⟨ha, e⟩
        have hab : a ≠ b := by rintro rfl; exact hb ha
        rw [AMap.get_erase, if_neg hab]
        exact e
      simp [unwrapAll, h1, this]

theorem Sim.forall₂ {m : State α} {s : PeersSet.State α} (h : Sim m s) :
    List.Forall₂ (fun a x => m.heap.get a = some (x, 2)) m.index s.index := by
  rw [List.forall₂_iff_get]
  refine ⟨h.len, ?_⟩
  intro i h1 h2
  exact h.cells i _ _ (List.getElem?_eq_getElem h1) (List.getElem?_eq_getElem h2)

theorem intoIter_sim {m : State α} {s : PeersSet.State α} (hs : PeersSet.Inv s) (h : Sim m s) :
    intoIter m = .ok s.index := by
  have hc := fun x i => (hs.cache x i).mp
  -- the entries of the map
  have hent : ∀ e ∈ m.cache, m.index[e.2.2]? = some e.2.1 ∧ s.index[e.2.2]? = some e.1 := by
    rintro ⟨x, a, i⟩ he
    have hg := AMap.get_of_mem h.keys he
    rw [h.cache] at hg
    cases hx : s.cache.get x with
    | none => rw [hx] at hg; simp at hg
    | some j =>
      rw [hx] at hg
      simp only [Option.bind_some, Option.map_eq_some_iff, Prod.mk.injEq] at hg
      obtain ⟨b, hb, rfl, rfl⟩ := hg
      exact ⟨hb, hc x _ hx⟩
  have hnd : (m.cache.map (fun e => e.2.1)).Nodup := by
    refine List.Nodup.map_on ?_ (List.Nodup.of_map _ h.keys)
    rintro ⟨x, a, i⟩ h1 ⟨y, b, j⟩ h2 hab
    simp only at hab
    subst hab
    obtain ⟨p1, p2⟩ := hent _ h1
    obtain ⟨q1, q2⟩ := hent _ h2
    simp only at p1 p2 q1 q2
    obtain ⟨l1, e1⟩ := List.getElem?_eq_some_iff.mp p1
    obtain ⟨l2, e2⟩ := List.getElem?_eq_some_iff.mp q1
    have : i = j := (List.Nodup.getElem_inj_iff h.nodup).mp (e1.trans e2.symm)
    subst this
    rw [p2] at q2; cases q2; rfl
  have hall : ∀ a, a ∈ m.cache.map (fun e => e.2.1) ↔ a ∈ m.index := by
    intro a
    simp only [List.mem_map]
    constructor
    · rintro ⟨e, he, rfl⟩; exact List.mem_of_getElem? (hent e he).1
    · intro ha
      obtain ⟨i, hi⟩ := List.mem_iff_getElem?.mp ha
      have hl : i < s.index.length := by
        rw [← h.len]; exact (List.getElem?_eq_some_iff.mp hi).1
      have hx : s.cache.get s.index[i] = some i := (hs.cache _ _).mpr (List.getElem?_eq_getElem hl)
      have hg : m.cache.get s.index[i] = some (a, i) := by rw [h.cache, hx]; simp [hi]
      exact ⟨_, AMap.mem_of_get hg, rfl⟩
  obtain ⟨h', e, hs'⟩ := dropAll_spec (m.cache.map (fun e => e.2.1)) m.heap hnd (by
    intro a ha
    obtain ⟨i, hi⟩ := List.mem_iff_getElem?.mp ((hall a).mp ha)
    have hl : i < s.index.length := by
      rw [← h.len]; exact (List.getElem?_eq_some_iff.mp hi).1
    exact ⟨_, h.cells i a _ hi (List.getElem?_eq_getElem hl)⟩)
  simp only [intoIter, e, bind_ok]
  apply unwrapAll_spec _ _ _ h.nodup
  rw [List.forall₂_iff_get]
  refine ⟨h.len, ?_⟩
  intro i h1 h2
  have hm : m.index.get ⟨i, h1⟩ ∈ m.index := List.get_mem _ _
  have hcell : m.heap.get (m.index.get ⟨i, h1⟩) = some (s.index.get ⟨i, h2⟩, 2) :=
    h.cells i _ _ (List.getElem?_eq_getElem h1) (List.getElem?_eq_getElem h2)
  rw [hs', if_pos ((hall _).mpr hm), hcell]
  rfl

end Verif.PeersSetMem
