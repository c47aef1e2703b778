import Verif.Proofs.PeersSet

/-!
# C17, C18: the bounded peer set (`src/adnl/peers_set.rs`)

Operations on the set are made of `with_capacity`/`with_peers_and_capacity` followed by any number
of inserts; `queue s` below is only a name for the positions read in ring order.
-/
namespace Verif.Props
open Verif Verif.PeersSet Verif.Spec

variable {α : Type} [DecidableEq α]

/-- A set that came out of a constructor and any sequence of inserts. -/
inductive Reachable : State α → Prop
  | empty (c : Nat) : Reachable (withCapacity c)
  | peers (ps : List α) (c : Nat) : Reachable (withPeers ps c)
  | insert (s : State α) (p : α) : Reachable s → Reachable (PeersSet.insert s p).1

theorem reachable_inv {s : State α} (h : Reachable s) : Inv s := by
  induction h with
  | empty c => exact withCapacity_inv c
  | peers ps c => exact (withPeers_spec ps c).1
  | insert s p _ ih => exact (insert_spec ih p).1

/-- Never more peers than the capacity, never the same peer at two positions; `contains` and `get`
agree; `is_full` means exactly that the capacity is reached. -/
theorem C17_bounded_unique_consistent (s : State α) (h : Reachable s) :
    len s ≤ s.capacity ∧
    (∀ i j x, get s i = some x → get s j = some x → i = j) ∧
    (∀ x, contains s x = true ↔ ∃ i, get s i = some x) ∧
    (∀ i, (∃ x, get s i = some x) ↔ i < len s) ∧
    (isFull s = true ↔ len s = s.capacity) := by
  have hi := reachable_inv h
  refine ⟨hi.le, ?_, ?_, ?_, ?_⟩
  · intro i j x h1 h2
    have a := (hi.cache x i).mpr h1
    have b := (hi.cache x j).mpr h2
    rw [a] at b; exact Option.some_inj.mp b
  · intro x
    rw [contains, hi.mem_iff, List.mem_iff_getElem?]
    rfl
  · intro i
    simp only [PeersSet.get, len]
    constructor
    · rintro ⟨x, hx⟩; exact (List.getElem?_eq_some_iff.mp hx).1
    · intro h; exact ⟨_, List.getElem?_eq_getElem h⟩
  · simp only [isFull, len, decide_eq_true_eq]
    have := hi.le; omega

example := C17_bounded_unique_consistent _ (.insert _ 4 (.insert _ 2 (.peers [1, 2, 3] 3)) : Reachable (α := Nat) _)

/-- Inserting reports `true` exactly for peers not present, afterwards the peer is present, and
the version changes exactly when the set changed. -/
theorem C17_insert_reports (s : State α) (h : Reachable s) (p : α) :
    ((PeersSet.insert s p).2 = true ↔ contains s p = false) ∧
    contains (PeersSet.insert s p).1 p = true ∧
    ((PeersSet.insert s p).2 = false → (PeersSet.insert s p).1 = s) ∧
    (PeersSet.insert s p).1.version = s.version + (if contains s p then 0 else 1) := by
  have hi := reachable_inv h
  obtain ⟨h1, _, h3, h4, h5⟩ := insert_spec hi p
  have hc : contains s p = decide (p ∈ s.index) := by
    rw [Bool.eq_iff_iff]; simp [contains, hi.mem_iff]
  refine ⟨?_, ?_, ?_, ?_⟩
  · rw [h3, hc]; simp
  · rw [contains, h1.mem_iff, ← (queue_perm _).mem_iff, h4]
    unfold fifoInsert
    split
    · assumption
    · split <;> simp
  · intro hf
    rw [h3] at hf
    rw [insert_present hi (by simpa using hf)]
  · rw [h5, hc]; simp

example := C17_insert_reports _ (.insert _ 4 (.peers [1, 2, 3] 3) : Reachable (α := Nat) _) 2

/-- The set is exactly a bounded first-in first-out queue: an insert of a new peer into a full set
evicts the peer that was inserted first among those present, and nothing else. -/
theorem C17_fifo (s : State α) (h : Reachable s) (p : α) :
    queue (PeersSet.insert s p).1 = fifoInsert s.capacity (queue s) p ∧
    (PeersSet.insert s p).1.capacity = s.capacity ∧
    ∀ x, x ∈ queue s ↔ contains s x = true := by
  have hi := reachable_inv h
  obtain ⟨_, h2, _, h4, _⟩ := insert_spec hi p
  refine ⟨h4, h2, ?_⟩
  intro x
  rw [(queue_perm s).mem_iff, contains, hi.mem_iff]

example := C17_fifo _ (.insert _ 4 (.peers [1, 2, 3] 3) : Reachable (α := Nat) _) 5

/-- Whole histories from an empty set: the members, oldest first, are those of the bounded queue
fed with the same inserts. -/
theorem C17_history (c : Nat) (ps : List α) :
    queue (extend (withCapacity c) ps) = ps.foldl (fifoInsert (max 1 c)) [] ∧
    (extend (withCapacity c) ps : State α).capacity = max 1 c := by
  obtain ⟨_, h2, h3⟩ := extend_spec (withCapacity_inv (α := α) c) ps
  exact ⟨h3, h2⟩

/-- `with_peers_and_capacity` keeps the first `capacity` distinct peers. -/
theorem C17_with_peers (c : Nat) (ps : List α) :
    queue (withPeers ps c) = firstDistinct (max 1 c) ps ∧
    (withPeers ps c).capacity = max 1 c :=
  ⟨(withPeers_spec ps c).2.2, (withPeers_spec ps c).2.1⟩

/-- Capacity 3, five inserts with a repetition: 1 and 2 were evicted. -/
example : queue (extend (withCapacity 3) [1, 2, 3, 2, 4, 5]) = [3, 4, 5] ∧
    (extend (withCapacity 3) [1, 2, 3, 2, 4, 5] : State Nat).index = [4, 5, 3] := by decide

example : queue (withPeers [7, 7, 8, 9, 10] 3) = [7, 8, 9] := by decide

/-! ## C18 -/

/-- `get_random_peers`, for every outcome of the random generator: distinct members, never the
excluded one, and exactly as many as possible up to the requested amount. -/
theorem C18_random_peers (s : State α) (h : Reachable s) (amount : Nat) (hamount : amount < 2 ^ 32 - 1)
    (except : Option α) (chosen : List α) (hs : IsSample chosen s.index (sampleSize amount except)) :
    let r := getRandomPeers chosen amount except
    r.Nodup ∧ (∀ x ∈ r, contains s x = true ∧ except ≠ some x) ∧
    r.length = min amount (s.index.filter (fun x => except ≠ some x)).length := by
  have hi := reachable_inv h
  have hnd : chosen.Nodup := by
    obtain ⟨l, hp, hsub⟩ := hs.1
    exact hp.nodup_iff.mp (hsub.nodup hi.nodup)
  have hmem : ∀ x ∈ chosen, x ∈ s.index := fun x hx => hs.1.subset hx
  cases except with
  | none =>
    refine ⟨hnd, ?_, ?_⟩
    · intro x hx; exact ⟨(hi.mem_iff x).mpr (hmem x hx), by simp⟩
    · simp only [getRandomPeers, hs.2, sampleSize]
      simp
  | some e =>
    have hsz : sampleSize amount (some e) = amount + 1 := by
      simp only [sampleSize, Option.isSome_some, if_true]; omega
    rw [hsz] at hs
    refine ⟨?_, ?_, ?_⟩
    · exact ((List.take_sublist _ _).trans List.filter_sublist).nodup hnd
    · intro x hx
      have hx2 := List.mem_of_mem_take hx
      simp only [List.mem_filter, decide_eq_true_eq] at hx2
      refine ⟨(hi.mem_iff x).mpr (hmem x hx2.1), ?_⟩
      intro hc; cases hc; exact hx2.2 rfl
    · simp only [getRandomPeers]
      have hfun : (fun x => decide (some e ≠ some x)) = (fun x => decide (x ≠ e)) := by
        funext x
        by_cases hx : x = e
        · simp [hx]
        · have : e ≠ x := fun hc => hx hc.symm
          simp [hx, this]
      rw [hfun]
      apply filter_take_sample s.index chosen amount (amount + 1) _ _ hs
      have : (s.index.filter (fun x => !decide (x ≠ e))) = s.index.filter (fun x => x == e) := by
        apply List.filter_congr
        intro x _
        by_cases hx : x = e <;> simp [hx]
      rw [this]
      have : (s.index.filter (fun x => x == e)).length ≤ 1 := by
        have := List.nodup_iff_count_le_one.mp hi.nodup e
        rwa [List.count_eq_length_filter] at this
      omega

example : IsSample [3, 1] [1, 2, 3] (sampleSize 1 (some 3)) ∧
    getRandomPeers [3, 1] 1 (some 3) = [1] := by
  refine ⟨⟨?_, by decide⟩, by decide⟩
  exact List.subperm_of_subset (by decide) (by decide)

/-- `randomly_fill_from`, for every outcome of the random generator: exactly
`min amount (number of allowed peers of the other set)` distinct allowed peers of the other set are
offered for insertion; afterwards every member is an old member or one of those; a set filled from
itself is unchanged. -/
theorem C18_fill (s other : State α) (h : Reachable s) (ho : Reachable other) (amount : Nat)
    (except : Option (List α)) (hex : ∀ es, except = some es → es.Nodup)
    (chosen : List α)
    (hs : IsSample chosen other.index (fillSampleSize amount except)) :
    let offered := fillOffered chosen amount except
    let allowed := fun x => decide (∀ es, except = some es → x ∉ es)
    offered.Nodup ∧
    (∀ x ∈ offered, contains other x = true ∧ allowed x = true) ∧
    offered.length = min amount (other.index.filter allowed).length ∧
    randomlyFillFrom s true chosen amount except = s ∧
    queue (randomlyFillFrom s false chosen amount except) =
      offered.foldl (fifoInsert s.capacity) (queue s) ∧
    (∀ x, contains (randomlyFillFrom s false chosen amount except) x = true →
      contains s x = true ∨ x ∈ offered) := by
  have hi := reachable_inv h
  have hio := reachable_inv ho
  have hnd : chosen.Nodup := by
    obtain ⟨l, hp, hsub⟩ := hs.1
    exact hp.nodup_iff.mp (hsub.nodup hio.nodup)
  have hmem : ∀ x ∈ chosen, x ∈ other.index := fun x hx => hs.1.subset hx
  obtain ⟨e1, e2, e3⟩ := extend_spec hi (fillOffered chosen amount except)
  refine ⟨?_, ?_, ?_, rfl, e3, ?_⟩
  · cases except with
    | none => exact hnd
    | some es => exact ((List.take_sublist _ _).trans List.filter_sublist).nodup hnd
  · intro x hx
    cases except with
    | none => exact ⟨(hio.mem_iff x).mpr (hmem x hx), by simp⟩
    | some es =>
      have hx2 := List.mem_of_mem_take hx
      simp only [List.mem_filter, decide_eq_true_eq] at hx2
      exact ⟨(hio.mem_iff x).mpr (hmem x hx2.1), by simpa using hx2.2⟩
  · cases except with
    | none => simp [fillOffered, hs.2, fillSampleSize]
    | some es =>
      simp only [fillOffered]
      have hfun : (fun x => decide (∀ es', some es = some es' → x ∉ es')) = (fun x => decide (x ∉ es)) := by
        funext x; simp
      rw [hfun]
      apply filter_take_sample other.index chosen amount (amount + es.length) _ _ hs
      have hsub : (other.index.filter (fun x => !decide (x ∉ es))).length ≤ es.length := by
        apply List.Subperm.length_le
        apply List.subperm_of_subset
        · exact List.filter_sublist.nodup hio.nodup
        · intro x hx
          simp only [List.mem_filter, Bool.not_eq_true', decide_eq_false_iff_not, not_not] at hx
          exact hx.2
      omega
  · intro x hx
    change contains (extend s (fillOffered chosen amount except)) x = true at hx
    rw [contains, e1.mem_iff, ← (queue_perm _).mem_iff, e3] at hx
    have key : ∀ (l q : List α), x ∈ l.foldl (fifoInsert s.capacity) q → x ∈ q ∨ x ∈ l := by
      intro l
      induction l with
      | nil => intro q hq; exact .inl hq
      | cons a l ih =>
        intro q hq
        rcases ih _ hq with h1 | h1
        · unfold fifoInsert at h1
          split at h1
          · exact .inl h1
          · split at h1
            · rcases List.mem_append.mp h1 with h2 | h2
              · exact .inl h2
              · simp at h2; right; simp [h2]
            · rcases List.mem_append.mp h1 with h2 | h2
              · exact .inl (List.mem_of_mem_tail h2)
              · simp at h2; right; simp [h2]
        · exact .inr (List.mem_cons_of_mem _ h1)
    rcases key _ _ hx with h1 | h1
    · left
      rw [contains, hi.mem_iff, ← (queue_perm s).mem_iff]; exact h1
    · exact .inr h1

example : IsSample [5, 6, 4] [4, 5, 6, 7] (fillSampleSize 2 (some [5])) ∧
    fillOffered [5, 6, 4] 2 (some [5]) = [6, 4] := by
  refine ⟨⟨?_, by decide⟩, by decide⟩
  exact List.subperm_of_subset (by decide) (by decide)

end Verif.Props
