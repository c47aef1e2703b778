import Verif.Model.SearchNet
import Verif.Proofs.Lookup

/-!
# Lemmas about searches among answering peers
-/
namespace Verif.SearchNet
open Verif.Lookup

theorem learnAll_prefix (l : List Bytes) : ∀ known, known <+: learnAll known l := by
  induction l with
  | nil => intro k; exact List.prefix_refl k
  | cons p l ih =>
    intro k
    unfold learnAll
    rw [List.foldl_cons]
    by_cases h : p ∈ k
    · rw [if_pos h]; exact ih k
    · rw [if_neg h]; exact (List.prefix_append k [p]).trans (ih _)

theorem learnAll_nodup (l : List Bytes) : ∀ {known}, known.Nodup → (learnAll known l).Nodup := by
  induction l with
  | nil => intro k h; exact h
  | cons p l ih =>
    intro k hk
    unfold learnAll
    rw [List.foldl_cons]
    by_cases h : p ∈ k
    · rw [if_pos h]; exact ih hk
    · rw [if_neg h]
      refine ih (known := k ++ [p]) ?_
      rw [List.nodup_append]
      refine ⟨hk, by simp, ?_⟩
      intro a ha b hb
      rw [List.mem_singleton.mp hb]
      rintro rfl
      exact h ha

theorem mem_learnAll (l : List Bytes) : ∀ {known} {x : Bytes}, x ∈ learnAll known l ↔ x ∈ known ∨ x ∈ l := by
  induction l with
  | nil => intro k x; simp [learnAll]
  | cons p l ih =>
    intro k x
    unfold learnAll
    rw [List.foldl_cons]
    by_cases h : p ∈ k
    · rw [if_pos h]
      refine (ih (known := k)).trans ?_
      rw [List.mem_cons]
      constructor
      · rintro (a | a)
        · exact .inl a
        · exact .inr (.inr a)
      · rintro (a | rfl | a)
        · exact .inl a
        · exact .inl h
        · exact .inr a
    · rw [if_neg h]
      refine (ih (known := k ++ [p])).trans ?_
      rw [List.mem_append, List.mem_singleton, List.mem_cons, or_assoc]

theorem Reply.learn_prefix (known : List Bytes) (r : Reply) : known <+: r.learn known := by
  cases r with
  | nodes l => exact learnAll_prefix l known
  | _ => exact List.prefix_refl _

theorem Reply.learn_nodup {known : List Bytes} (h : known.Nodup) (r : Reply) : (r.learn known).Nodup := by
  cases r with
  | nodes l => exact learnAll_nodup l h
  | _ => exact h

/-- What always holds of a search. -/
structure Inv (known0 : List Bytes) (w : World) : Prop where
  count : CountOk w.stream
  started : w.stream.count ≠ none
  pre : known0 <+: w.known
  nodup : w.known.Nodup
  sent : w.stream.asked.Perm (w.done ++ w.stream.futures)
  index : w.stream.iter.index = w.stream.version + 1
  le : w.stream.version ≤ w.known.length
  mark : w.stream.version ∈ w.marks
  marks : ∀ m ∈ w.marks, m ≤ w.stream.version
  first : known0.length ≤ w.stream.version
  low : ∀ m ∈ w.marks, known0.length ≤ m
  distinct : w.marks.Nodup
  seen : w.stream.seen.Nodup
  pos : ∀ p ∈ w.stream.seen, ∃ i, w.known[i]? = some p ∧ i < w.stream.version ∧ i ∉ w.marks

/-- The stream after starting what it can. -/
def fired (s : Stream) : Stream := launch s (s.count.getD 0)

theorem start_eq {cfg : Cfg} {t : Turn} {s : Stream} (h : s.count ≠ none) :
    Lookup.start cfg t s = (s, s.count.getD 0) := by
  unfold Lookup.start
  cases hc : s.count with
  | none => exact absurd hc h
  | some n => rfl

theorem turn_idle {cfg : Cfg} {s : Stream} (h : s.count ≠ none) (known : List Bytes) (bad : Bytes → Bool) :
    (turn cfg s (idle known bad)).1 = fired s ∧
      ((turn cfg s (idle known bad)).2 = .finished ↔ (fired s).futures = []) := by
  unfold turn
  rw [start_eq h]
  simp only [idle]
  split
  · rename_i he; exact ⟨rfl, by simp; exact he⟩
  · rename_i he; exact ⟨rfl, by simp; exact he⟩

theorem turn_ready {cfg : Cfg} {s : Stream} (h : s.count ≠ none) (known : List Bytes) (v : Nat)
    (bad : Bytes → Bool) (i : Nat) (b : Bool) (he : (fired s).futures ≠ []) :
    (turn cfg s ⟨known, v, bad, some (i, b)⟩).1 =
      finish cfg ⟨known, v, bad, some (i, b)⟩ (fired s) (i % (fired s).futures.length) := by
  unfold turn
  rw [start_eq h]
  simp only
  exact congrArg Prod.fst (if_neg he)

theorem fired_count {s : Stream} (h : CountOk s) (hs : s.count ≠ none) :
    CountOk (fired s) ∧ ((fired s).futures = [] → (fired s).iter.stack = []) ∧ (fired s).count ≠ none := by
  unfold fired
  unfold CountOk at h
  cases hc : s.count with
  | none => exact absurd hc hs
  | some n => rw [hc] at h; exact launch_count h.1 h.2

theorem launch_sent (s : Stream) (n : Nat) : ∃ l, (launch s n).asked = s.asked ++ l ∧
    (launch s n).futures = s.futures ++ l ∧ (launch s n).version = s.version := by
  unfold launch
  split
  · exact ⟨_, rfl, rfl, rfl⟩
  · exact ⟨[], by simp, by simp, rfl⟩

theorem launch_inv {known0 : List Bytes} {w : World} (h : Inv known0 w) :
    Inv known0 { w with stream := fired w.stream } := by
  obtain ⟨h1, -, h3⟩ := fired_count h.count h.started
  obtain ⟨l, h4, h5, h6⟩ := launch_sent w.stream (w.stream.count.getD 0)
  obtain ⟨h7, h8⟩ := launch_seen w.stream (w.stream.count.getD 0)
  refine ⟨h1, h3, h.pre, h.nodup, ?_, ?_, ?_, ?_, ?_, ?_, h.low, h.distinct, ?_, ?_⟩ <;>
    simp only [fired, h4, h5, h6, h7, h8]
  · rw [← List.append_assoc]; exact h.sent.append_right l
  · exact h.index
  · exact h.le
  · exact h.mark
  · exact h.marks
  · exact h.first
  · exact h.seen
  · exact h.pos

theorem learn_inv {known0 : List Bytes} {w : World} (h : Inv known0 w) {known : List Bytes}
    (hp : w.known <+: known) (hn : known.Nodup) : Inv known0 { w with known := known } := by
  refine { h with pre := h.pre.trans hp, nodup := hn, le := Nat.le_trans h.le hp.length_le, pos := ?_ }
  intro p hp'
  obtain ⟨i, h1, h2⟩ := h.pos p hp'
  obtain ⟨t, rfl⟩ := hp
  refine ⟨i, ?_, h2⟩
  rw [List.getElem?_append_left (List.getElem?_eq_some_iff.mp h1).1]
  exact h1

theorem perm_erase {a d f : List Bytes} {i : Nat} {p : Bytes} (h : a.Perm (d ++ f)) (hp : f[i]? = some p) :
    a.Perm ((d ++ [p]) ++ f.eraseIdx i) := by
  refine h.trans ?_
  rw [List.append_assoc]
  refine List.Perm.append_left d ?_
  obtain ⟨hi, rfl⟩ := List.getElem?_eq_some_iff.mp hp
  exact (List.getElem_cons_eraseIdx_perm hi).symm

/-- The state after a request is over, before the known peers are looked at. -/
def closeReq (s : Stream) (i : Nat) : Stream :=
  { s with futures := s.futures.eraseIdx i, count := s.count.map (· - 1) }

theorem finish_eq (cfg : Cfg) (t : Turn) (s : Stream) (i : Nat) :
    finish cfg t s i = if cfg.useNew ∧ t.version ≠ s.version then
      { closeReq s i with iter := fill cfg.sort cfg.key t.bad cfg.batch t.known s.iter, version := t.version }
    else closeReq s i := rfl

theorem complete_inv {known0 : List Bytes} {w : World} {cfg : Cfg} (hs : SortOk cfg.sort) (h : Inv known0 w)
    {i : Nat} {p : Bytes} (hp : w.stream.futures[i % w.stream.futures.length]? = some p)
    {bad : Bytes → Bool} {found : List Bytes} {b : Bool} :
    Inv known0 ⟨finish cfg ⟨w.known, w.known.length, bad, some (i, b)⟩ w.stream (i % w.stream.futures.length),
      w.known, w.done ++ [p], found,
      if cfg.useNew ∧ w.known.length ≠ w.stream.version then w.marks ++ [w.known.length] else w.marks⟩ := by
  have hne : w.stream.futures ≠ [] := by
    intro e; rw [e] at hp; simp at hp
  have hcount := finish_count (cfg := cfg) (t := ⟨w.known, w.known.length, bad, some (i, b)⟩) h.count hne h.started i
  have hsent := perm_erase h.sent hp
  have hst : w.stream.count.map (· - 1) ≠ none := by
    cases hc : w.stream.count with
    | none => exact absurd hc h.started
    | some n => exact fun e => by cases e
  rw [finish_eq] at hcount ⊢
  by_cases hc : cfg.useNew ∧ w.known.length ≠ w.stream.version
  · rw [if_pos hc] at hcount ⊢
    rw [if_pos hc]
    have hlt : w.stream.version < w.known.length := Nat.lt_of_le_of_ne h.le (Ne.symm hc.2)
    obtain ⟨new, h1, h2, -⟩ := fill_seen hs (⟨w.known, w.known.length, bad, some (i, b)⟩ : Turn) w.stream
    have hidx := (fill_spec hs cfg.key bad cfg.batch w.known w.stream.iter).1
    have hnew : ∀ q ∈ new, ∃ j, w.stream.version < j ∧ j < w.known.length ∧ w.known[j]? = some q := by
      intro q hq
      have := (List.mem_filter.mp (h1.subset hq)).1
      obtain ⟨j, hj⟩ := List.mem_iff_getElem?.mp this
      rw [List.getElem?_drop, h.index] at hj
      have hlt := (List.getElem?_eq_some_iff.mp hj).1
      exact ⟨_, by omega, hlt, hj⟩
    refine ⟨hcount, hst, h.pre, h.nodup, hsent, ?_, Nat.le_refl _, ?_, ?_, ?_, ?_, ?_, ?_, ?_⟩
    · simp only [hidx, h.index]; omega
    · simp
    · intro m hm
      rcases List.mem_append.mp hm with hm | hm
      · exact Nat.le_trans (h.marks m hm) h.le
      · rw [List.mem_singleton.mp hm]; exact Nat.le_refl _
    · exact Nat.le_trans h.first h.le
    · intro m hm
      rcases List.mem_append.mp hm with hm | hm
      · exact h.low m hm
      · rw [List.mem_singleton.mp hm]; exact h.pre.length_le
    · rw [List.nodup_append]
      refine ⟨h.distinct, by simp, ?_⟩
      intro a ha c hc
      rw [List.mem_singleton.mp hc]
      have := h.marks a ha
      omega
    · obtain ⟨l, hl, hsub⟩ := h2
      refine hl.nodup_iff.mp (hsub.nodup ?_)
      rw [List.nodup_append]
      refine ⟨?_, h.seen, ?_⟩
      · exact h1.nodup (List.filter_sublist.nodup ((List.drop_sublist _ _).nodup h.nodup))
      · intro a ha c hc hac
        subst hac
        obtain ⟨j, h3, h4, h5⟩ := hnew a ha
        obtain ⟨k, h6, h7, -⟩ := h.pos a hc
        have := (List.getElem?_inj h4 h.nodup).mp (h5.trans h6.symm)
        omega
    · intro q hq
      rcases List.mem_append.mp (h2.subset hq) with hm | hm
      · obtain ⟨j, h3, h4, h5⟩ := hnew q hm
        refine ⟨j, h5, h4, ?_⟩
        intro hj
        rcases List.mem_append.mp hj with hj | hj
        · have := h.marks j hj; omega
        · rw [List.mem_singleton.mp hj] at h4; omega
      · obtain ⟨k, h6, h7, h8⟩ := h.pos q hm
        refine ⟨k, h6, Nat.lt_trans h7 hlt, ?_⟩
        intro hj
        rcases List.mem_append.mp hj with hj | hj
        · exact h8 hj
        · rw [List.mem_singleton.mp hj] at h7; omega
  · rw [if_neg hc] at hcount ⊢
    rw [if_neg hc]
    exact ⟨hcount, hst, h.pre, h.nodup, hsent, h.index, h.le, h.mark, h.marks, h.first, h.low, h.distinct, h.seen,
      h.pos⟩

theorem step_complete {cfg : Cfg} {net : Bytes → Reply} {w : World} (hc : w.stream.count ≠ none) {i : Nat} {bad : Bytes → Bool}
    {p : Bytes} (hp : (inFlight w)[i % (inFlight w).length]? = some p) :
    step cfg net w (.complete i bad) =
      ⟨finish cfg ⟨(net p).learn w.known, ((net p).learn w.known).length, bad, some (i, decide (net p = .value))⟩
          (fired w.stream) (i % (fired w.stream).futures.length),
        (net p).learn w.known, w.done ++ [p], if net p = .value then w.found ++ [p] else w.found,
        if cfg.useNew ∧ ((net p).learn w.known).length ≠ w.stream.version then
          w.marks ++ [((net p).learn w.known).length] else w.marks⟩ := by
  have hne : (fired w.stream).futures ≠ [] := by
    intro e
    unfold inFlight at hp
    unfold fired at e
    rw [e] at hp
    simp at hp
  unfold step
  simp only [hp]
  rw [turn_ready hc _ _ _ _ _ hne]

theorem step_marks (cfg : Cfg) (net : Bytes → Reply) (w : World) (e : Ev) :
    (step cfg net w e).marks = w.marks ∨ cfg.useNew = true ∧ ∃ m, (step cfg net w e).marks = w.marks ++ [m] := by
  cases e with
  | learn q => exact .inl rfl
  | poll => exact .inl rfl
  | complete i bad =>
    cases hq : (inFlight w)[i % (inFlight w).length]? with
    | none => left; simp only [step, hq]
    | some q =>
      simp only [step, hq]
      by_cases hc : cfg.useNew ∧ ((net q).learn w.known).length ≠ w.stream.version
      · rw [if_pos hc]; exact .inr ⟨hc.1, _, rfl⟩
      · rw [if_neg hc]; exact .inl rfl

theorem fired_version (s : Stream) : (fired s).version = s.version :=
  (launch_sent s (s.count.getD 0)).choose_spec.2.2

theorem step_inv {known0 : List Bytes} {w : World} {cfg : Cfg} (hs : SortOk cfg.sort) {net : Bytes → Reply}
    (h : Inv known0 w) (e : Ev) : Inv known0 (step cfg net w e) := by
  cases e with
  | learn p => exact learn_inv h (learnAll_prefix _ _) (learnAll_nodup _ h.nodup)
  | poll =>
    unfold step
    simp only
    rw [(turn_idle h.started _ _).1]
    exact launch_inv h
  | complete i bad =>
    cases hp : (inFlight w)[i % (inFlight w).length]? with
    | none => unfold step; simp only [hp]; exact h
    | some p =>
      rw [step_complete h.started hp]
      have h1 := learn_inv (launch_inv h) ((net p).learn_prefix w.known) ((net p).learn_nodup h.nodup)
      have h2 := complete_inv hs h1 (i := i) (p := p) hp (bad := bad)
        (found := if net p = .value then w.found ++ [p] else w.found) (b := decide (net p = .value))
      rw [show ({ w with stream := fired w.stream } : World).stream.version = w.stream.version from
        fired_version _] at h2
      exact h2

theorem turn_none {cfg : Cfg} {s : Stream} (t : Turn) (h : t.ready = none) :
    (turn cfg s t).1 = launch (Lookup.start cfg t s).1 (Lookup.start cfg t s).2 := by
  unfold turn
  generalize launch (Lookup.start cfg t s).1 (Lookup.start cfg t s).2 = s'
  simp only [h]
  split <;> rfl

theorem start_inv {cfg : Cfg} (hs : SortOk cfg.sort) {known : List Bytes} (hn : known.Nodup) (bad : Bytes → Bool) :
    Inv known (start cfg known bad) := by
  have hturn : (turn cfg (init known.length) (idle known bad)).1 =
      launch { init known.length with iter := fill cfg.sort cfg.key bad cfg.batch known ⟨[], 0⟩ } 0 :=
    turn_none _ rfl
  have hidx := (fill_spec hs cfg.key bad cfg.batch known ⟨[], 0⟩).1
  have hseen := fill_seenOk hn hs (t := idle known bad) (List.prefix_refl _) (init_seenOk known known.length)
  generalize hs0 : ({ init known.length with iter := fill cfg.sort cfg.key bad cfg.batch known ⟨[], 0⟩ } : Stream) = s0 at hturn
  obtain ⟨l, h4, h5, h6⟩ := launch_sent s0 0
  obtain ⟨h7, h8⟩ := launch_seen s0 0
  obtain ⟨h1, -, h3⟩ := launch_count (s := s0) (n := 0) (by rw [← hs0]; rfl) (Nat.zero_le _)
  have hv : s0.version = known.length := by rw [← hs0]; rfl
  have hi : s0.iter.index = known.length + 1 := by rw [← hs0]; simp only [hidx]; omega
  have hq : SeenOk known s0 := by rw [← hs0]; exact hseen
  unfold start
  rw [hturn]
  refine ⟨h1, h3, List.prefix_refl _, hn, ?_, ?_, ?_, ?_, ?_, ?_, ?_, ?_, ?_, ?_⟩ <;>
    simp only [h4, h5, h6, h7, h8, hv, hi]
  · rw [← hs0]; exact List.Perm.refl _
  · exact Nat.le_refl _
  · simp
  · simp
  · exact Nat.le_refl _
  · simp
  · simp
  · exact hq.nodup
  · intro p hp
    obtain ⟨i, h9, h10⟩ := hq.pos p hp
    have := (List.getElem?_eq_some_iff.mp h10).1
    exact ⟨i, h10, this, by simp; omega⟩

theorem run_inv {known0 : List Bytes} {cfg : Cfg} (hs : SortOk cfg.sort) {net : Bytes → Reply}
    (evs : List Ev) : ∀ {w : World}, Inv known0 w → Inv known0 (run cfg net w evs) := by
  induction evs with
  | nil => intro w h; exact h
  | cons e evs ih => intro w h; exact ih (step_inv hs h e)

/-! ### What is asked, when nothing is cut off -/

/-- The peer is not bad when it is read. -/
def Ev.fine (p : Bytes) : Ev → Prop
  | .complete _ bad => bad p = false
  | _ => True

/-- Peers read are seen. -/
def Takes (p : Bytes) (w : World) : Prop :=
  ∀ i, w.known[i]? = some p → i < w.stream.version → i ∉ w.marks → p ∈ w.stream.seen

theorem prefix_get {a b : List Bytes} (h : a <+: b) {i : Nat} (hi : i < a.length) : b[i]? = a[i]? := by
  obtain ⟨t, rfl⟩ := h
  exact List.getElem?_append_left hi

theorem step_takes {known0 : List Bytes} {w : World} {cfg : Cfg} (hs : SortOk cfg.sort) (hb : cfg.batch = none)
    {net : Bytes → Reply} (h : Inv known0 w) {p : Bytes} (ht : Takes p w) {e : Ev} (he : e.fine p) :
    Takes p (step cfg net w e) := by
  cases e with
  | learn q =>
    intro i hi hv hm
    refine ht i ?_ hv hm
    exact (prefix_get (learnAll_prefix _ _) (Nat.lt_of_lt_of_le hv h.le)).symm.trans hi
  | poll =>
    unfold step
    simp only
    rw [(turn_idle h.started _ _).1]
    intro i hi hv hm
    simp only [fired_version] at hv
    have := ht i hi hv hm
    simp only [fired, (launch_seen _ _).1]
    exact this
  | complete j bad =>
    cases hq : (inFlight w)[j % (inFlight w).length]? with
    | none => unfold step; simp only [hq]; exact ht
    | some q =>
      rw [step_complete h.started hq]
      have hpre := (net q).learn_prefix w.known
      have hnd := (net q).learn_nodup h.nodup
      generalize (net q).learn w.known = known at hpre hnd
      intro i hi hv hm
      simp only at hi hv hm
      rw [finish_eq] at hv ⊢
      simp only [fired_version] at hv ⊢
      by_cases hc : cfg.useNew ∧ known.length ≠ w.stream.version
      · rw [if_pos hc] at hv hm ⊢
        simp only at hv
        obtain ⟨new, -, -, h2⟩ := fill_seen hs (⟨known, known.length, bad, some (j, decide (net q = .value))⟩ : Turn)
          (fired w.stream)
        obtain ⟨h3, h4⟩ := h2 hb
        refine (h3.mem_iff (a := p)).mpr (List.mem_append.mpr ?_)
        have hidx : (fired w.stream).iter.index = w.stream.version + 1 := by
          rw [fired, (launch_seen _ _).2]; exact h.index
        by_cases hlt : i < w.stream.version
        · right
          rw [fired, (launch_seen _ _).1]
          refine ht i ?_ hlt (fun hm' => hm (List.mem_append_left _ hm'))
          exact (prefix_get hpre (Nat.lt_of_lt_of_le hlt h.le)).symm.trans hi
        · left
          have hne : i ≠ w.stream.version := by
            rintro rfl
            exact hm (List.mem_append_left _ h.mark)
          rw [h4, hidx]
          refine List.mem_filter.mpr ⟨?_, by simpa [Ev.fine] using he⟩
          refine List.mem_iff_getElem?.mpr ⟨i - (w.stream.version + 1), ?_⟩
          rw [List.getElem?_drop]
          simp only
          rw [show w.stream.version + 1 + (i - (w.stream.version + 1)) = i by omega]
          exact hi
      · rw [if_neg hc] at hv hm ⊢
        simp only [closeReq, fired_version] at hv
        have := ht i ((prefix_get hpre (Nat.lt_of_lt_of_le hv h.le)).symm.trans hi) hv hm
        have hseen : (closeReq (fired w.stream) (j % (fired w.stream).futures.length)).seen = w.stream.seen :=
          (launch_seen w.stream (w.stream.count.getD 0)).1
        rw [hseen]
        exact this

theorem start_takes {cfg : Cfg} (hs : SortOk cfg.sort) (hb : cfg.batch = none) {known : List Bytes}
    (bad : Bytes → Bool) {p : Bytes} (hp : bad p = false) : Takes p (start cfg known bad) := by
  have hturn : (turn cfg (init known.length) (idle known bad)).1 =
      launch { init known.length with iter := fill cfg.sort cfg.key bad cfg.batch known ⟨[], 0⟩ } 0 :=
    turn_none _ rfl
  intro i hi _ _
  unfold start at hi ⊢
  simp only at hi ⊢
  rw [hturn, (launch_seen _ _).1]
  obtain ⟨new, -, -, h2⟩ := fill_seen hs (idle known bad) (init known.length)
  obtain ⟨h3, h4⟩ := h2 hb
  refine (h3.mem_iff (a := p)).mpr (List.mem_append_left _ ?_)
  rw [h4]
  exact List.mem_filter.mpr ⟨List.mem_iff_getElem?.mpr ⟨i, hi⟩, by simpa [idle] using hp⟩

theorem run_takes {known0 : List Bytes} {cfg : Cfg} (hs : SortOk cfg.sort) (hb : cfg.batch = none)
    {net : Bytes → Reply} {p : Bytes} (evs : List Ev) : ∀ {w : World}, Inv known0 w → Takes p w →
    (∀ e ∈ evs, e.fine p) → Takes p (run cfg net w evs) := by
  induction evs with
  | nil => intro w _ ht _; exact ht
  | cons e evs ih =>
    intro w h ht hf
    exact ih (step_inv hs h e) (step_takes hs hb h ht (hf e List.mem_cons_self))
      (fun e' he' => hf e' (List.mem_cons_of_mem _ he'))

/-! ### What is told and found -/

/-- Whatever was told by answers is known, and was read when new peers are used; values are handed out. -/
structure Told (cfg : Cfg) (net : Bytes → Reply) (w : World) : Prop where
  known : ∀ q ∈ w.done, ∀ l, net q = .nodes l → ∀ x ∈ l, x ∈ w.known
  read : cfg.useNew = true → ∀ q ∈ w.done, ∀ l, net q = .nodes l → ∀ x ∈ l,
    ∃ i, i < w.stream.version ∧ w.known[i]? = some x
  found : w.found = w.done.filter (fun q => decide (net q = .value))

theorem step_told {known0 : List Bytes} {w : World} {cfg : Cfg} {net : Bytes → Reply} (h : Inv known0 w)
    (ht : Told cfg net w) (e : Ev) : Told cfg net (step cfg net w e) := by
  cases e with
  | learn q =>
    refine ⟨fun a ha l hl x hx => (learnAll_prefix _ _).subset (ht.known a ha l hl x hx), ?_, ht.found⟩
    intro hu a ha l hl x hx
    obtain ⟨i, h1, h2⟩ := ht.read hu a ha l hl x hx
    exact ⟨i, h1, (prefix_get (learnAll_prefix _ _) (List.getElem?_eq_some_iff.mp h2).1).trans h2⟩
  | poll =>
    unfold step
    simp only
    rw [(turn_idle h.started _ _).1]
    refine ⟨ht.known, ?_, ht.found⟩
    simp only [fired_version]
    exact ht.read
  | complete j bad =>
    cases hq : (inFlight w)[j % (inFlight w).length]? with
    | none => unfold step; simp only [hq]; exact ht
    | some q =>
      rw [step_complete h.started hq]
      have hpre := (net q).learn_prefix w.known
      have hk : ∀ a ∈ w.done ++ [q], ∀ l, net a = .nodes l → ∀ x ∈ l, x ∈ (net q).learn w.known := by
        intro a ha l hl x hx
        rcases List.mem_append.mp ha with ha | ha
        · exact hpre.subset (ht.known a ha l hl x hx)
        · rw [List.mem_singleton.mp ha] at hl
          rw [hl]
          exact (mem_learnAll l).mpr (.inr hx)
      refine ⟨hk, ?_, ?_⟩
      · intro hu a ha l hl x hx
        have hver : (finish cfg ⟨(net q).learn w.known, ((net q).learn w.known).length, bad,
            some (j, decide (net q = .value))⟩ (fired w.stream) (j % (fired w.stream).futures.length)).version =
            ((net q).learn w.known).length := by
          rw [finish_eq]
          by_cases hc : ((net q).learn w.known).length ≠ (fired w.stream).version
          · rw [if_pos ⟨hu, hc⟩]
          · rw [if_neg (fun h => hc h.2)]
            exact (Decidable.not_not.mp hc).symm
        simp only [hver]
        obtain ⟨i, hi⟩ := List.mem_iff_getElem?.mp (hk a ha l hl x hx)
        exact ⟨i, (List.getElem?_eq_some_iff.mp hi).1, hi⟩
      · simp only [ht.found]
        rw [List.filter_append]
        by_cases hv : net q = .value
        · rw [if_pos hv]; simp [hv]
        · rw [if_neg hv]; simp [hv]

theorem start_told (cfg : Cfg) (net : Bytes → Reply) (known : List Bytes) (bad : Bytes → Bool) :
    Told cfg net (start cfg known bad) :=
  ⟨fun _ h => absurd h List.not_mem_nil, fun _ _ h => absurd h List.not_mem_nil, rfl⟩

theorem run_told {known0 : List Bytes} {cfg : Cfg} (hs : SortOk cfg.sort)
    {net : Bytes → Reply} (evs : List Ev) : ∀ {w : World}, Inv known0 w → Told cfg net w →
    Told cfg net (run cfg net w evs) := by
  induction evs with
  | nil => intro w _ ht; exact ht
  | cons e evs ih => intro w h ht; exact ih (step_inv hs h e) (step_told h ht e)

/-- At the end everything seen was asked and is over. -/
theorem over_seen {known0 : List Bytes} {w : World} {cfg : Cfg} (h : Inv known0 w) (ho : Over cfg w) :
    w.stream.seen = w.stream.asked ∧ w.stream.asked.Perm w.done := by
  have hf := (turn_idle h.started _ _).2.mp ho
  have hst := (fired_count h.count h.started).2.1 hf
  obtain ⟨l, h4, h5, -⟩ := launch_sent w.stream (w.stream.count.getD 0)
  have hsn := (launch_seen w.stream (w.stream.count.getD 0)).1
  unfold fired at hf hst
  rw [hf] at h5
  obtain ⟨h6, h7⟩ := List.append_eq_nil_iff.mp h5.symm
  have h8 := h.sent
  rw [h6, List.append_nil] at h8
  refine ⟨?_, h8⟩
  rw [← hsn, Stream.seen, hst, h4, h7]
  simp

end Verif.SearchNet
