import Verif.Model.Locks

/-! # Locks taken in ascending order cannot deadlock -/
namespace Verif.Locks

/-- What is left to do takes only locks above those held and releases everything. -/
def Ordered (lt : Lock → Lock → Prop) : List (Lock × Mode) → List Instr → Prop
  | held, [] => held = []
  | held, .acq l m :: r => (∀ h ∈ held, lt h.1 l) ∧ Ordered lt ((l, m) :: held) r
  | held, .rel l m :: r => (l, m) ∈ held ∧ Ordered lt (held.erase (l, m)) r

def AllOrdered (lt : Lock → Lock → Prop) (s : State) : Prop := ∀ t ∈ s, Ordered lt t.held t.rest

theorem advance_ordered {lt : Lock → Lock → Prop} {s : State} {t : Thread} (h : Ordered lt t.held t.rest) :
    Ordered lt (t.advance s).held (t.advance s).rest := by
  unfold Thread.advance
  split
  · exact h
  · rename_i l m r hr
    rw [hr] at h
    split
    · exact h.2
    · rw [hr]; exact h
  · rename_i l m r hr
    rw [hr] at h
    exact h.2

theorem step_ordered {lt : Lock → Lock → Prop} {s : State} (h : AllOrdered lt s) (i : Nat) :
    AllOrdered lt (step s i) := by
  unfold step
  split
  · rename_i t ht
    intro u hu
    rcases List.mem_or_eq_of_mem_set hu with hu | hu
    · exact h u hu
    · rw [hu]; exact advance_ordered (h t (List.mem_of_getElem? ht))
  · exact h

theorem run_ordered {lt : Lock → Lock → Prop} {s : State} (h : AllOrdered lt s) (sched : List Nat) :
    AllOrdered lt (run s sched) := by
  induction sched generalizing s with
  | nil => exact h
  | cons i sched ih => exact ih (step_ordered h i)

/-- A finite list has an element with nothing above it. -/
theorem exists_top {lt : Lock → Lock → Prop} (irr : ∀ a, ¬ lt a a) (tr : ∀ a b c, lt a b → lt b c → lt a c) :
    ∀ l : List Lock, l ≠ [] → ∃ m ∈ l, ∀ x ∈ l, ¬ lt m x
  | [], h => absurd rfl h
  | [a], _ => ⟨a, by simp, by intro x hx; simp at hx; rw [hx]; exact irr a⟩
  | a :: b :: l, _ => by
    obtain ⟨m, hm, hmax⟩ := exists_top irr tr (b :: l) (by simp)
    by_cases hab : lt m a
    · refine ⟨a, by simp, ?_⟩
      intro x hx hax
      rcases List.mem_cons.mp hx with e | hx
      · rw [e] at hax; exact irr a hax
      · exact hmax x hx (tr _ _ _ hab hax)
    · refine ⟨m, List.mem_cons_of_mem _ hm, ?_⟩
      intro x hx
      rcases List.mem_cons.mp hx with e | hx
      · rw [e]; exact hab
      · exact hmax x hx

/-- The lock a task waits for. -/
def Thread.wants (t : Thread) : List Lock :=
  match t.rest with
  | .acq l _ :: _ => [l]
  | _ => []

/-- Some task can go on, unless all are done. -/
theorem progress {lt : Lock → Lock → Prop} (irr : ∀ a, ¬ lt a a) (tr : ∀ a b c, lt a b → lt b c → lt a c)
    {s : State} (h : AllOrdered lt s) (hu : ∃ t ∈ s, t.rest ≠ []) : ∃ i, CanStep s i := by
  apply Classical.byContradiction
  intro hno
  have hblk : ∀ t ∈ s, ¬ (match t.rest with
      | [] => False
      | .rel _ _ :: _ => True
      | .acq l .write :: _ => available s l .write = true
      | .acq l .read :: _ => available s l .read = true ∧ ∀ u ∈ s, ∀ r, u.rest ≠ .acq l .write :: r) := by
    intro t ht hc
    obtain ⟨i, hi⟩ := List.getElem?_of_mem ht
    exact hno ⟨i, t, hi, hc⟩
  -- every unfinished task waits for a lock
  have hwait : ∀ t ∈ s, t.rest ≠ [] → ∃ l m r, t.rest = .acq l m :: r := by
    intro t ht hne
    have hb := hblk t ht
    cases hr : t.rest with
    | nil => exact absurd hr hne
    | cons a r =>
      cases a with
      | acq l m => exact ⟨l, m, r, rfl⟩
      | rel l m => rw [hr] at hb; exact absurd trivial hb
  have hmem : ∀ t ∈ s, ∀ l m r, t.rest = .acq l m :: r → l ∈ s.flatMap Thread.wants := by
    intro t ht l m r hr
    rw [List.mem_flatMap]
    exact ⟨t, ht, by simp [Thread.wants, hr]⟩
  obtain ⟨t0, ht0, hne0⟩ := hu
  obtain ⟨l0, m0, r0, hr0⟩ := hwait t0 ht0 hne0
  obtain ⟨l, hl, htop⟩ := exists_top irr tr (s.flatMap Thread.wants)
    (List.ne_nil_of_mem (hmem t0 ht0 l0 m0 r0 hr0))
  -- nobody holds the topmost lock that is waited for
  have hnohold : ∀ u ∈ s, ∀ m, (l, m) ∉ u.held := by
    intro u hus m hm
    have hou := h u hus
    have hne : u.rest ≠ [] := by
      intro e
      rw [e] at hou
      have : u.held = [] := hou
      rw [this] at hm; cases hm
    obtain ⟨l', m', r', hr'⟩ := hwait u hus hne
    rw [hr'] at hou
    exact htop l' (hmem u hus l' m' r' hr') (hou.1 (l, m) hm)
  have hav : ∀ m, available s l m = true := by
    intro m
    cases m
    · simp only [available, List.all_eq_true, decide_eq_true_eq]
      exact fun u hus => hnohold u hus _
    · simp only [available, List.all_eq_true, decide_eq_true_eq]
      exact fun u hus => ⟨hnohold u hus _, hnohold u hus _⟩
  have hnowrite : ∀ u ∈ s, ∀ r, u.rest ≠ .acq l .write :: r := by
    intro u hus r hr
    have hb := hblk u hus
    rw [hr] at hb
    exact hb (hav _)
  obtain ⟨t, hts, htw⟩ := List.mem_flatMap.mp hl
  unfold Thread.wants at htw
  split at htw
  · rename_i l' m r hr
    simp only [List.mem_cons, List.not_mem_nil, or_false] at htw
    subst htw
    cases m
    · have hb := hblk t hts
      rw [hr] at hb
      exact hb ⟨hav _, hnowrite⟩
    · exact hnowrite t hts r hr
  · cases htw

/-! ## Everything ends -/

def work (s : State) : Nat := (s.map (fun t => t.rest.length)).sum

theorem sum_set (f : Thread → Nat) : ∀ (s : State) (i : Nat) (t u : Thread), s[i]? = some t → f u < f t →
    ((s.set i u).map f).sum < (s.map f).sum
  | [], _, _, _, h, _ => by simp at h
  | a :: s, 0, t, u, h, hlt => by
    simp only [List.getElem?_cons_zero, Option.some.injEq] at h
    subst h
    simp only [List.set_cons_zero, List.map_cons, List.sum_cons]; omega
  | a :: s, i + 1, t, u, h, hlt => by
    simp only [List.getElem?_cons_succ] at h
    have := sum_set f s i t u h hlt
    simp only [List.set_cons_succ, List.map_cons, List.sum_cons]; omega

theorem canStep_work {s : State} {i : Nat} (h : CanStep s i) : work (step s i) < work s := by
  obtain ⟨t, ht, hc⟩ := h
  unfold step
  simp only [ht]
  apply sum_set (fun t => t.rest.length) s i t _ ht
  unfold Thread.advance
  split
  · rename_i hr; rw [hr] at hc; exact absurd hc (by simp)
  · rename_i l m r hr
    rw [hr] at hc
    cases m
    · simp only at hc
      rw [if_pos hc.1, hr]; simp
    · simp only at hc
      rw [if_pos hc, hr]; simp
  · rename_i l m r hr
    rw [hr]; simp

theorem finish {lt : Lock → Lock → Prop} (irr : ∀ a, ¬ lt a a) (tr : ∀ a b c, lt a b → lt b c → lt a c) :
    ∀ (n : Nat) (s : State), work s ≤ n → AllOrdered lt s →
      ∃ sched, ∀ t ∈ run s sched, t.rest = [] ∧ t.held = [] := by
  intro n
  induction n with
  | zero =>
    intro s hw ho
    refine ⟨[], ?_⟩
    intro t ht
    have : t.rest = [] := by
      apply Classical.byContradiction
      intro hne
      obtain ⟨i, hi⟩ := progress irr tr ho ⟨t, ht, hne⟩
      have := canStep_work hi
      omega
    refine ⟨this, ?_⟩
    have h := ho t ht
    rw [this] at h
    exact h
  | succ n ih =>
    intro s hw ho
    by_cases hu : ∃ t ∈ s, t.rest ≠ []
    · obtain ⟨i, hi⟩ := progress irr tr ho hu
      have := canStep_work hi
      obtain ⟨sched, hs⟩ := ih (step s i) (by omega) (step_ordered ho i)
      exact ⟨i :: sched, hs⟩
    · refine ⟨[], ?_⟩
      intro t ht
      have : t.rest = [] := by
        apply Classical.byContradiction
        intro hne; exact hu ⟨t, ht, hne⟩
      refine ⟨this, ?_⟩
      have h := ho t ht
      rw [this] at h
      exact h

/-! ## The order of the tables -/

def Table.rank : Table → Nat
  | .overlays => 0 | .subscribers => 1 | .peers => 2 | .channelsByPeers => 3 | .channelsById => 4
  | .incomingTransfers => 5 | .queries => 6 | .knownPeers => 7 | .neighbours => 8 | .localSet => 9
  | .ignoredPeers => 10 | .nodes => 11 | .receivedPeers => 12 | .ownedBroadcasts => 13
  | .rldpTransfers => 14 | .semaphores => 15 | .dhtKnownPeers => 16 | .penalties => 17 | .buckets => 18
  | .storage => 19 | .initState => 20

/-- Locks in the order in which the code nests them. -/
def Below (a b : Lock) : Prop :=
  a.table.rank < b.table.rank ∨
    (a.table.rank = b.table.rank ∧ (a.inst < b.inst ∨ (a.inst = b.inst ∧ a.shard < b.shard)))

theorem below_irrefl (a : Lock) : ¬ Below a a := by unfold Below; omega

theorem below_trans (a b c : Lock) : Below a b → Below b c → Below a c := by unfold Below; omega

section
variable {lt : Lock → Lock → Prop}

/-- `a` can be executed holding `held` and leaves it unchanged. -/
def Nested (lt : Lock → Lock → Prop) (held : List (Lock × Mode)) (a : List Instr) : Prop :=
  ∀ r, Ordered lt held r → Ordered lt held (a ++ r)

theorem Nested.nil {held : List (Lock × Mode)} : Nested lt held [] := fun _ h => h

theorem Nested.append {held : List (Lock × Mode)} {a b : List Instr} (ha : Nested lt held a)
    (hb : Nested lt held b) : Nested lt held (a ++ b) := by
  intro r hr
  rw [List.append_assoc]
  exact ha _ (hb r hr)

theorem Nested.during {held : List (Lock × Mode)} {l : Lock} {m : Mode} {a : List Instr}
    (hl : ∀ h ∈ held, lt h.1 l) (ha : Nested lt ((l, m) :: held) a) : Nested lt held (during l m a) := by
  intro r hr
  unfold Locks.during
  simp only [List.cons_append, List.append_assoc, List.nil_append]
  refine ⟨hl, ha _ ⟨by simp, ?_⟩⟩
  simpa using hr

theorem Nested.reads {held : List (Lock × Mode)} {t : Table} {i : Nat}
    (hl : ∀ s, ∀ h ∈ held, lt h.1 ⟨t, i, s⟩) : ∀ ss, Nested lt held (reads t i ss)
  | [] => Nested.nil
  | s :: ss => Nested.append (Nested.during (hl s) Nested.nil) (Nested.reads hl ss)

theorem Nested.channelIds {held : List (Lock × Mode)} (hl : ∀ s, ∀ h ∈ held, lt h.1 ⟨.channelsById, 0, s⟩)
    (ids : Option (Nat × Nat)) : Nested lt held (channelIds ids) := by
  cases ids with
  | none => exact Nested.nil
  | some p => exact Nested.append (Nested.during (hl _) Nested.nil) (Nested.during (hl _) Nested.nil)

end

theorem iter_nested (t : Table) (inst : Nat) (n : Nat) : ∀ i r, Ordered Below [] r →
    Ordered Below [(⟨t, inst, i⟩, .read)] (iterFrom t inst i n ++ r) := by
  induction n with
  | zero =>
    intro i r hr
    refine ⟨by simp, ?_⟩
    simpa using hr
  | succ n ih =>
    intro i r hr
    refine ⟨?_, ?_, ?_⟩
    · intro h hh
      simp only [List.mem_cons, List.not_mem_nil, or_false] at hh
      subst hh
      exact Or.inr ⟨rfl, Or.inr ⟨rfl, Nat.lt_succ_self i⟩⟩
    · simp
    · have e : ([(⟨t, inst, i + 1⟩, Mode.read), (⟨t, inst, i⟩, Mode.read)] : List (Lock × Mode)).erase
          (⟨t, inst, i⟩, .read) = [(⟨t, inst, i + 1⟩, .read)] := by
        rw [List.erase_cons_tail (by simp)]
        simp
      rw [e]
      exact ih (i + 1) r hr

theorem section_nested (x : Section) : Nested Below [] x.trace := by
  cases x <;> simp only [Section.trace]
  case single l m => exact Nested.during (by simp) Nested.nil
  case iterate t inst n =>
    intro r hr
    exact ⟨by simp, iter_nested t inst n 0 r hr⟩
  case sendMessage loc peer chan =>
    refine Nested.during (by simp) ?_
    cases chan with
    | none => exact Nested.nil
    | some c => exact Nested.during (by simp [Below, Table.rank]) Nested.nil
  case resetPeer loc peer chan ids =>
    refine Nested.during (by simp) (Nested.append (Nested.during ?_ Nested.nil) (Nested.channelIds ?_ _))
    · simp [Below, Table.rank]
    · intro s; simp [Below, Table.rank]
  case createChannel loc peer chan old new =>
    refine Nested.during (by simp) (Nested.during ?_ (Nested.append (Nested.channelIds ?_ _)
      (Nested.channelIds ?_ _)))
    · simp [Below, Table.rank]
    · intro s; simp [Below, Table.rank]
    · intro s; simp [Below, Table.rank]
  case updateNeighbours ov ignored =>
    refine Nested.during (by simp) (Nested.during ?_ (Nested.reads ?_ _))
    · simp [Below, Table.rank]
    · intro s; simp [Below, Table.rank]
  case addOverlay shard ov ignored =>
    refine Nested.during (by simp) (Nested.during ?_ (Nested.during ?_ (Nested.reads ?_ _)))
    · simp [Below, Table.rank]
    · simp [Below, Table.rank]
    · intro s; simp [Below, Table.rank]
  case writeCached ov set ignored =>
    refine Nested.during (by simp) (Nested.during ?_ (Nested.reads ?_ _))
    · simp [Below, Table.rank]
    · intro s; simp [Below, Table.rank]
  case fillLocal ov set =>
    refine Nested.during (by simp) (Nested.during ?_ Nested.nil)
    simp [Below, Table.rank]
  case readLocal ov set found =>
    refine Nested.during (by simp) (Nested.reads ?_ _)
    intro s; simp [Below, Table.rank]

theorem program_ordered (ss : List Section) : Ordered Below [] (program ss) := by
  induction ss with
  | nil => rfl
  | cons x ss ih => exact section_nested x _ ih

theorem start_ordered (tasks : List (List Section)) : AllOrdered Below (start tasks) := by
  intro t ht
  simp only [start, List.mem_map] at ht
  obtain ⟨ss, -, rfl⟩ := ht
  exact program_ordered ss

end Verif.Locks
