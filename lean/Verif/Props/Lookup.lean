import Verif.Proofs.Lookup
import Verif.Props.Buckets

/-!
# C33, C35: DHT lookups

A history of a lookup is a list of turns of `poll_next`; what each turn finds (known peers, bad peers,
which request completed) is arbitrary. `SortOk` is the assumption on `sort_unstable_by_key`.
-/
namespace Verif.Lookup
open Verif.Buckets

/-! ### C33 -/

/-- C33: no peer is asked twice. -/
theorem C33_no_peer_asked_twice {K : List Bytes} (hK : K.Nodup) {cfg : Cfg} (hs : SortOk cfg.sort)
    (version : Nat) (ts : List Turn) (ht : ∀ t ∈ ts, t.known <+: K) :
    (run cfg (init version) ts).asked.Nodup :=
  ((List.sublist_append_left _ _).nodup (run_seenOk hK hs ts ht (init_seenOk K version)).nodup)

/-- C33: only known peers are asked that were not considered bad when they were chosen. -/
theorem C33_only_good_peers {cfg : Cfg} (hs : SortOk cfg.sort) (version : Nat) (ts : List Turn) :
    ∀ p ∈ (run cfg (init version) ts).asked, ∃ t ∈ ts, p ∈ t.known ∧ t.bad p = false := by
  intro p hp
  exact run_seen_all hs (fun p => ∃ t ∈ ts, p ∈ t.known ∧ t.bad p = false) ts
    (fun t ht p hp hb => ⟨t, ht, hp, hb⟩) (s := init version)
    (fun p h => absurd h List.not_mem_nil) p (List.mem_append_left _ hp)

/-- The entries of the iterator carry the right affinity. -/
def AffOk (key : Bytes) (it : Iter) : Prop := ∀ x ∈ it.stack, x.1 = affinity key x.2

theorem fill_affOk {sort : List (Nat × Bytes) → List (Nat × Bytes)} (hs : SortOk sort) {key : Bytes}
    {bad : Bytes → Bool} {batch : Option Nat} {known : List Bytes} {it : Iter} (h : AffOk key it) :
    AffOk key (fill sort key bad batch known it) := by
  obtain ⟨-, new, -, h2, h3, -⟩ := fill_spec hs key bad batch known it
  intro x hx
  rcases List.mem_append.mp (h3.subset hx) with hm | hm
  · exact h2 x hm
  · exact h x hm

theorem turn_affOk {cfg : Cfg} (hs : SortOk cfg.sort) {s : Stream} (t : Turn) (h : AffOk cfg.key s.iter) :
    AffOk cfg.key (turn cfg s t).1.iter := by
  refine turn_cases cfg s t (fun s => AffOk cfg.key s.iter) ?_ ?_ ?_ h
  · intro s f n v h; exact h
  · intro s n h
    unfold launch
    split
    · obtain ⟨k, h1, -⟩ := refill_spec s.iter.stack n []
      intro x hx
      simp only [h1] at hx
      exact h x (List.mem_of_mem_drop hx)
    · exact h
  · intro s h
    exact fill_affOk hs h

theorem run_affOk {cfg : Cfg} (hs : SortOk cfg.sort) (ts : List Turn) : ∀ {s : Stream},
    AffOk cfg.key s.iter → AffOk cfg.key (run cfg s ts).iter := by
  induction ts with
  | nil => intro s h; exact h
  | cons t ts ih => intro s h; exact ih (turn_affOk hs t h)

/-- C33: whenever the batch is filled, it contains a peer that shares at least as long a prefix with the
key as every eligible peer read and every peer still waiting. -/
theorem C33_batch_contains_closest {cfg : Cfg} (hs : SortOk cfg.sort) (version : Nat) (ts : List Turn)
    (bad : Bytes → Bool) (known : List Bytes) (p : Bytes)
    (hp : (p ∈ known.drop (run cfg (init version) ts).iter.index ∧ bad p = false) ∨
      p ∈ (run cfg (init version) ts).iter.stack.map (·.2)) :
    ∃ q ∈ (fill cfg.sort cfg.key bad cfg.batch known (run cfg (init version) ts).iter).stack.map (·.2),
      affinity cfg.key p ≤ affinity cfg.key q := by
  have ha : AffOk cfg.key (run cfg (init version) ts).iter :=
    run_affOk hs ts (s := init version) (fun x h => absurd h List.not_mem_nil)
  generalize (run cfg (init version) ts).iter = it at hp ha
  have haf := fill_affOk hs (bad := bad) (batch := cfg.batch) (known := known) ha
  obtain ⟨h1, h2⟩ := fillLoop_covers cfg.key bad cfg.batch (known.drop it.index) it
  have key : ∃ x ∈ (fillLoop cfg.key bad cfg.batch (known.drop it.index) it).stack,
      affinity cfg.key p ≤ x.1 := by
    rcases hp with ⟨hp, hb⟩ | hp
    · exact h2 p hp hb
    · obtain ⟨x, hx, rfl⟩ := List.mem_map.mp hp
      exact ⟨x, h1 x hx, by rw [ha x hx]; exact Nat.le_refl _⟩
  obtain ⟨x, hx, hle⟩ := key
  obtain ⟨y, hy, hxy⟩ := cut_head hs cfg.batch
    (fillLoop cfg.key bad cfg.batch (known.drop it.index) it).stack.reverse x (List.mem_reverse.mpr hx)
  have hm : y ∈ (fill cfg.sort cfg.key bad cfg.batch known it).stack := by
    unfold fill
    exact List.mem_reverse.mpr hy
  refine ⟨y.2, List.mem_map.mpr ⟨y, hm, rfl⟩, ?_⟩
  rw [← haf y hm]
  omega

/-- C33, last part as stated: when a lookup that uses new peers ends, every peer that was known at some
turn but the last, and never bad, has been asked. The version of the known peers changes whenever the
list does. -/
def C33_full : Prop :=
  ∀ (cfg : Cfg) (K : List Bytes) (version : Nat) (ts : List Turn) (t : Turn), SortOk cfg.sort → K.Nodup →
    cfg.useNew = true → (∀ u ∈ ts ++ [t], u.known <+: K) →
    (∀ u ∈ ts ++ [t], ∀ u' ∈ ts ++ [t], u.version = u'.version → u.known = u'.known) →
    (∀ u, (ts ++ [t]).head? = some u → u.version = version) →
    (turn cfg (run cfg (init version) ts) t).2 = .finished →
    ∀ u ∈ ts, ∀ p ∈ u.known, (∀ u' ∈ ts ++ [t], u'.bad p = false) →
      p ∈ (turn cfg (run cfg (init version) ts) t).1.asked

/-- Insertion sort, descending; an instance of the sort used by the code. -/
def insertDesc (x : Nat × Bytes) : List (Nat × Bytes) → List (Nat × Bytes)
  | [] => [x]
  | y :: ys => if y.1 ≤ x.1 then x :: y :: ys else y :: insertDesc x ys

def sortDesc : List (Nat × Bytes) → List (Nat × Bytes)
  | [] => []
  | x :: xs => insertDesc x (sortDesc xs)

theorem insertDesc_perm (x : Nat × Bytes) (v : List (Nat × Bytes)) : (insertDesc x v).Perm (x :: v) := by
  induction v with
  | nil => exact List.Perm.refl _
  | cons y ys ih =>
    unfold insertDesc
    split
    · exact List.Perm.refl _
    · exact (ih.cons y).trans (List.Perm.swap x y ys)

theorem insertDesc_sorted (x : Nat × Bytes) (v : List (Nat × Bytes))
    (h : v.Pairwise (fun a b => b.1 ≤ a.1)) : (insertDesc x v).Pairwise (fun a b => b.1 ≤ a.1) := by
  induction v with
  | nil => exact List.pairwise_singleton _ _
  | cons y ys ih =>
    unfold insertDesc
    split
    · rename_i hyx
      refine List.pairwise_cons.mpr ⟨?_, h⟩
      intro z hz
      rcases List.mem_cons.mp hz with rfl | hz
      · exact hyx
      · have := (List.pairwise_cons.mp h).1 z hz
        omega
    · rename_i hyx
      refine List.pairwise_cons.mpr ⟨?_, ih (List.pairwise_cons.mp h).2⟩
      intro z hz
      rcases List.mem_cons.mp ((insertDesc_perm x ys).mem_iff.mp hz) with rfl | hz
      · omega
      · exact (List.pairwise_cons.mp h).1 z hz

theorem sortDesc_ok : SortOk sortDesc := by
  constructor
  · intro v
    induction v with
    | nil => exact List.Perm.refl _
    | cons x xs ih => exact (insertDesc_perm x _).trans (ih.cons x)
  · intro v
    induction v with
    | nil => exact List.Pairwise.nil
    | cons x xs ih => exact insertDesc_sorted x _ ih

namespace Example

def good : Bytes → Bool := fun _ => false
def p0 : Bytes := List.replicate 32 0
def p1 : Bytes := List.replicate 32 1

/-- A lookup that uses all peers and new peers. -/
def cfg : Cfg := ⟨sortDesc, p0, none, true⟩

/-- One peer is known and asked; it tells about a second one; then the lookup ends. -/
def turns : List Turn := [⟨[p0], 0, good, none⟩, ⟨[p0, p1], 1, good, some (0, false)⟩]

def last : Turn := ⟨[p0, p1], 1, good, none⟩

/-- Seven known peers and the default batch of five. -/
def cfgBatch : Cfg := ⟨sortDesc, p0, some 5, false⟩

def seven : List Bytes := [7, 6, 5, 4, 3, 2, 1].map fun n => List.replicate n 0 ++ List.replicate (32 - n) 255

end Example

theorem new_peer_skipped : (turn Example.cfg (run Example.cfg (init 0) Example.turns) Example.last).2 =
      .finished ∧
    (turn Example.cfg (run Example.cfg (init 0) Example.turns) Example.last).1.asked = [Example.p0] := by
  decide +kernel

/-- C33 as stated is false: the read that finds no further peer advances the index too, so the first
peer discovered afterwards is never asked. -/
theorem C33_full_false : ¬ C33_full := by
  intro h
  obtain ⟨h1, h2⟩ := new_peer_skipped
  have := h Example.cfg [Example.p0, Example.p1] 0 Example.turns Example.last sortDesc_ok
    (by decide) rfl (by decide) (by decide) (by
      intro u hu
      cases hu
      rfl) h1
    ⟨[Example.p0, Example.p1], 1, Example.good, some (0, false)⟩
    (List.mem_cons_of_mem _ List.mem_cons_self) Example.p1 (by decide) (by
      intro u hu
      simp only [Example.turns, Example.last, List.mem_append, List.mem_cons, List.not_mem_nil, or_false] at hu
      rcases hu with (rfl | rfl) | rfl <;> rfl)
  rw [h2] at this
  exact absurd this (by decide)

theorem batch_drops :
    (run Example.cfgBatch (init 0) ((List.range 9).map fun _ =>
      ⟨Example.seven, 0, Example.good, some (0, false)⟩)).asked.length = 5 ∧
    (turn Example.cfgBatch (run Example.cfgBatch (init 0) ((List.range 9).map fun _ =>
      ⟨Example.seven, 0, Example.good, some (0, false)⟩)) ⟨Example.seven, 0, Example.good, none⟩).2 =
        .finished := by decide +kernel

/-- C33: with the default batch size, peers cut off the batch are never asked, even though the lookup
goes on to the end and nothing was found: a lookup among seven good peers ends after asking five. -/
theorem C33_batch_drops_peers_partial : ∃ (cfg : Cfg) (known : List Bytes) (ts : List Turn) (t : Turn),
    SortOk cfg.sort ∧ known.Nodup ∧ (∀ u ∈ ts ++ [t], u.known = known ∧ u.bad = fun _ => false) ∧
    (turn cfg (run cfg (init 0) ts) t).2 = .finished ∧
    (run cfg (init 0) ts).asked.length + 2 = known.length :=
  ⟨Example.cfgBatch, Example.seven,
    (List.range 9).map fun _ => ⟨Example.seven, 0, Example.good, some (0, false)⟩,
    ⟨Example.seven, 0, Example.good, none⟩, sortDesc_ok, by decide +kernel, by
      intro u hu
      rcases List.mem_append.mp hu with hu | hu
      · obtain ⟨_, _, rfl⟩ := List.mem_map.mp hu; exact ⟨rfl, rfl⟩
      · rw [List.mem_singleton.mp hu]; exact ⟨rfl, rfl⟩,
    batch_drops.2, by rw [batch_drops.1]; decide⟩

/-- C33, the part that is true: a lookup with `use_full_batch` and without `use_new_peers` asks exactly
the peers that were known and not bad when it began. -/
theorem C33_full_batch_asks_everyone_partial {cfg : Cfg} (hs : SortOk cfg.sort) (hb : cfg.batch = none)
    (hu : cfg.useNew = false) (version : Nat) (ts : List Turn) (t first : Turn)
    (hf : (ts ++ [t]).head? = some first)
    (h : (turn cfg (run cfg (init version) ts) t).2 = .finished) :
    (turn cfg (run cfg (init version) ts) t).1.asked.Perm
      (first.known.filter (fun p => !first.bad p)) := by
  have hstack : (turn cfg (run cfg (init version) ts) t).1.iter.stack = [] := by
    have hc := run_count (cfg := cfg) ts (init_count version)
    generalize run cfg (init version) ts = s at h hc
    obtain ⟨h1, h2, -⟩ := start_count (cfg := cfg) (t := t) hc
    obtain ⟨-, h5, -⟩ := launch_count h1 h2
    unfold turn at h ⊢
    simp only at h ⊢
    split at h
    · rename_i he
      rw [if_pos he]
      exact h5 he
    · cases hr : t.ready with
      | none => rw [hr] at h; cases h
      | some r =>
        rw [hr] at h
        simp only at h
        split at h <;> cases h
  have hseen : (turn cfg (run cfg (init version) ts) t).1.seen.Perm
      (first.known.filter (fun p => !first.bad p)) := by
    have hrun : (turn cfg (run cfg (init version) ts) t).1 = run cfg (init version) (ts ++ [t]) := by
      unfold run
      rw [List.foldl_append]
      rfl
    rw [hrun]
    cases hl : ts ++ [t] with
    | nil => rw [hl] at hf; cases hf
    | cons first us =>
      rw [hl] at hf
      cases hf
      obtain ⟨h1, h2⟩ := turn_seen_eq hu (init version) first
      have h3 := (run_seen_eq hu us (s := (turn cfg (init version) first).1) h2).1
      have h4 : (run cfg (init version) (first :: us)).seen = (start cfg first (init version)).1.seen :=
        h3.trans h1
      rw [h4]
      obtain ⟨new, -, -, h5⟩ := fill_seen hs first (init version)
      obtain ⟨h6, h7⟩ := h5 hb
      rw [h7] at h6
      exact h6.trans (by simp [init, Stream.seen])
  unfold Stream.seen at hseen
  rw [hstack] at hseen
  simpa using hseen

/-- C33: what filling without batch limit reads: all eligible peers from the index on; the index then
lies one past the end, which is what makes the next peer be skipped. -/
theorem C33_fill_exact_partial {sort : List (Nat × Bytes) → List (Nat × Bytes)} (hs : SortOk sort)
    (key : Bytes) (bad : Bytes → Bool) (known : List Bytes) (it : Iter) (hi : it.index ≤ known.length) :
    ((fill sort key bad none known it).stack.map (·.2)).Perm
      ((known.drop it.index).filter (fun p => !bad p) ++ it.stack.map (·.2)) ∧
    (fill sort key bad none known it).index = known.length + 1 := by
  obtain ⟨h1, new, -, -, -, h2⟩ := fill_spec hs key bad none known it
  obtain ⟨h3, h4⟩ := h2 rfl
  refine ⟨?_, by rw [h1]; omega⟩
  rw [← h4, ← List.map_append]
  exact h3.map _

/-! ### C35 -/

/-- C35 as stated: at most five (`MAX_PARALLEL_FUTURES`) requests are in flight. -/
def C35_full : Prop :=
  ∀ (cfg : Cfg) (version : Nat) (ts : List Turn), SortOk cfg.sort →
    (run cfg (init version) ts).futures.length ≤ 5

/-- C35 as stated is false: with six known peers, six requests are started at once. -/
theorem C35_full_false : ¬ C35_full := by
  intro h
  have h1 := h ⟨sortDesc, Example.p0, none, false⟩ 0 [⟨Example.seven, 0, Example.good, none⟩] sortDesc_ok
  have h2 : (run ⟨sortDesc, Example.p0, none, false⟩ (init 0)
    [⟨Example.seven, 0, Example.good, none⟩]).futures.length = 6 := by decide +kernel
  rw [h2] at h1
  exact absurd h1 (by decide)

/-- C35: what is true: never more than six, one above `MAX_PARALLEL_FUTURES`, also between the start of
requests and the completion of one in the same turn. -/
theorem C35_at_most_six_partial (cfg : Cfg) (version : Nat) (ts : List Turn) (t : Turn) :
    (run cfg (init version) ts).futures.length ≤ 6 ∧
    (launch (start cfg t (run cfg (init version) ts)).1 (start cfg t (run cfg (init version) ts)).2).futures.length
      ≤ 6 := by
  have hc := run_count (cfg := cfg) ts (init_count version)
  generalize run cfg (init version) ts = s at hc
  have key : ∀ s : Stream, CountOk s → s.futures.length ≤ maxParallel + 1 := by
    intro s hs
    unfold CountOk at hs
    cases hn : s.count with
    | none => rw [hn] at hs; simp only at hs; rw [hs]; simp
    | some n => rw [hn] at hs; omega
  refine ⟨key s hc, key _ ?_⟩
  obtain ⟨h1, h2, -⟩ := start_count (cfg := cfg) (t := t) hc
  exact (launch_count h1 h2).1

/-- C35: a lookup ends only when no request is in flight and no candidate remains. -/
theorem C35_ends_only_when_done (cfg : Cfg) (version : Nat) (ts : List Turn) (t : Turn)
    (h : (turn cfg (run cfg (init version) ts) t).2 = .finished) :
    (turn cfg (run cfg (init version) ts) t).1.futures = [] ∧
    (turn cfg (run cfg (init version) ts) t).1.iter.stack = [] := by
  have hc := run_count (cfg := cfg) ts (init_count version)
  generalize run cfg (init version) ts = s at h hc
  obtain ⟨h1, h2, -⟩ := start_count (cfg := cfg) (t := t) hc
  obtain ⟨-, h5, -⟩ := launch_count h1 h2
  unfold turn at h ⊢
  simp only at h ⊢
  split at h
  · rename_i he
    rw [if_pos he]
    exact ⟨he, h5 he⟩
  · cases hr : t.ready with
    | none => rw [hr] at h; cases h
    | some r =>
      rw [hr] at h
      simp only at h
      split at h <;> cases h

/-- C35: conversely, while there is a candidate or a request in flight the lookup goes on. -/
theorem C35_goes_on_while_candidates (cfg : Cfg) (version : Nat) (ts : List Turn) (t : Turn)
    (h : (run cfg (init version) ts).futures ≠ [] ∨
      (start cfg t (run cfg (init version) ts)).1.iter.stack ≠ []) :
    (turn cfg (run cfg (init version) ts) t).2 ≠ .finished := by
  have hc := run_count (cfg := cfg) ts (init_count version)
  generalize run cfg (init version) ts = s at h hc
  obtain ⟨h1, h2, h3⟩ := start_count (cfg := cfg) (t := t) hc
  have hne : (launch (start cfg t s).1 (start cfg t s).2).futures ≠ [] := by
    unfold launch
    split
    · obtain ⟨k, -, -, h4, -, -, -, h5⟩ := refill_spec (start cfg t s).1.iter.stack (start cfg t s).2 []
      simp only [h4]
      intro e
      obtain ⟨e1, e2⟩ := List.append_eq_nil_iff.mp e
      rcases h with h | h
      · exact h (h3 ▸ e1)
      · have := h5 h
        cases hst : (start cfg t s).1.iter.stack with
        | nil => exact h hst
        | cons y ys =>
          rw [hst] at e2
          cases k with
          | zero => omega
          | succ k => simp at e2
    · rename_i hl
      intro e
      have e' : (start cfg t s).1.futures = [] := e
      rw [e'] at h1
      simp [maxParallel] at h1 hl
      omega
  unfold turn
  simp only
  rw [if_neg hne]
  cases t.ready with
  | none => exact fun e => by cases e
  | some r =>
    simp only
    split <;> exact fun e => by cases e

/-- Non-vacuity: a lookup with `use_full_batch` among the seven peers asks all seven and ends. -/
example : (turn ⟨sortDesc, Example.p0, none, false⟩
      (run ⟨sortDesc, Example.p0, none, false⟩ (init 0) ((List.range 9).map fun _ =>
        ⟨Example.seven, 0, Example.good, some (0, false)⟩)) ⟨Example.seven, 0, Example.good, none⟩).2 =
      .finished ∧
    (run ⟨sortDesc, Example.p0, none, false⟩ (init 0) ((List.range 9).map fun _ =>
        ⟨Example.seven, 0, Example.good, some (0, false)⟩)).asked.length = 7 := by decide +kernel

example : (Example.seven).Nodup ∧ SortOk Example.cfgBatch.sort :=
  ⟨by decide +kernel, sortDesc_ok⟩

/-- C33: two turns of a lookup while a node is learnt. -/
example : (run Example.cfg (init 0) Example.turns).asked.Nodup ∧
    ∀ p ∈ (run Example.cfg (init 0) Example.turns).asked, ∃ t ∈ Example.turns, p ∈ t.known ∧ t.bad p = false :=
  ⟨C33_no_peer_asked_twice (K := [Example.p0, Example.p1]) (by decide) sortDesc_ok 0 Example.turns (by decide),
    C33_only_good_peers sortDesc_ok 0 Example.turns⟩

/-- C33: the closest of the seven nodes is in the first batch of five. -/
example : ∃ q ∈ (fill sortDesc Example.p0 Example.good (some 5) Example.seven (init 0).iter).stack.map (·.2),
    affinity Example.p0 (List.replicate 7 0 ++ List.replicate 25 255) ≤ affinity Example.p0 q :=
  C33_batch_contains_closest (cfg := Example.cfgBatch) sortDesc_ok 0 [] Example.good Example.seven _
    (.inl ⟨by decide +kernel, rfl⟩)

/-- C33, C35: without limit all seven nodes are asked, and at the end nothing is left. -/
example : (turn ⟨sortDesc, Example.p0, none, false⟩
      (run ⟨sortDesc, Example.p0, none, false⟩ (init 0) ((List.range 9).map fun _ =>
        ⟨Example.seven, 0, Example.good, some (0, false)⟩)) ⟨Example.seven, 0, Example.good, none⟩).1.asked.Perm
      (Example.seven.filter fun p => !Example.good p) ∧
    (turn ⟨sortDesc, Example.p0, none, false⟩
      (run ⟨sortDesc, Example.p0, none, false⟩ (init 0) ((List.range 9).map fun _ =>
        ⟨Example.seven, 0, Example.good, some (0, false)⟩)) ⟨Example.seven, 0, Example.good, none⟩).1.futures = [] :=
  ⟨C33_full_batch_asks_everyone_partial (cfg := ⟨sortDesc, Example.p0, none, false⟩) sortDesc_ok rfl rfl 0 _ _
      ⟨Example.seven, 0, Example.good, some (0, false)⟩ rfl (by decide +kernel),
    (C35_ends_only_when_done ⟨sortDesc, Example.p0, none, false⟩ 0 _ _ (by decide +kernel)).1⟩

example : ((fill sortDesc Example.p0 Example.good none Example.seven (init 0).iter).stack.map (·.2)).Perm
    ((Example.seven.drop 0).filter (fun p => !Example.good p) ++ (init 0).iter.stack.map (·.2)) :=
  (C33_fill_exact_partial sortDesc_ok Example.p0 Example.good Example.seven (init 0).iter (by decide)).1

theorem retain_limit (n top : Nat) (l : List (Nat × Bytes)) : ∀ off, off ≤ n → l.Pairwise (fun a b => b.1 ≤ a.1) →
    off + (retain n top off l).length ≤ n ∨ ∀ x ∈ retain n top off l, top ≤ x.1 := by
  induction l with
  | nil => intro off h _; exact .inl h
  | cons x xs ih =>
    intro off h hp
    rw [List.pairwise_cons] at hp
    unfold retain
    by_cases ho : off < n
    · rw [if_pos (.inl ho)]
      rcases ih (off + 1) (by omega) hp.2 with h1 | h1
      · left; rw [List.length_cons]; omega
      · cases hr : retain n top (off + 1) xs with
        | nil => left; simp; omega
        | cons y ys =>
          right
          rw [hr] at h1
          have hy := h1 y List.mem_cons_self
          have hyx : y ∈ xs := (retain_sublist n top xs (off + 1)).subset (by rw [hr]; exact List.mem_cons_self)
          have := hp.1 y hyx
          intro z hz
          rcases List.mem_cons.mp hz with rfl | hz
          · omega
          · exact h1 z hz
    · right
      clear ih
      have key : ∀ (l : List (Nat × Bytes)) off, ¬ off < n → ∀ z ∈ retain n top off l, top ≤ z.1 := by
        intro l
        induction l with
        | nil => intro off _ z hz; cases hz
        | cons y ys ih =>
          intro off ho z hz
          unfold retain at hz
          split at hz
          · rename_i hc
            rcases List.mem_cons.mp hz with rfl | hz
            · omega
            · exact ih _ (by omega) z hz
          · exact ih _ (by omega) z hz
      have := key (x :: xs) off ho
      unfold retain at this
      exact this

/-- C33: the batch is limited: what is kept when it is filled with a limit `n` is at most `n` peers, or all of them share
the same number of bits with the key. -/
theorem C33_batch_limit {cfg : Cfg} (hs : SortOk cfg.sort) (version : Nat) (ts : List Turn) (bad : Bytes → Bool)
    (known : List Bytes) (n : Nat) (hn : cfg.batch = some n) :
    let kept := (fill cfg.sort cfg.key bad cfg.batch known (run cfg (init version) ts).iter).stack.map (·.2)
    kept.length ≤ n ∨ ∀ p ∈ kept, ∀ q ∈ kept, affinity cfg.key p = affinity cfg.key q := by
  intro kept
  have ha : AffOk cfg.key (run cfg (init version) ts).iter :=
    run_affOk hs ts (s := init version) (fun x h => absurd h List.not_mem_nil)
  have haf := fill_affOk hs (bad := bad) (batch := cfg.batch) (known := known) ha
  have hk : kept = (fill cfg.sort cfg.key bad cfg.batch known (run cfg (init version) ts).iter).stack.map (·.2) := rfl
  clear_value kept
  unfold AffOk at haf
  generalize hf : fill cfg.sort cfg.key bad cfg.batch known (run cfg (init version) ts).iter = it at *
  have hst : it.stack = (cut cfg.sort cfg.batch
      (fillLoop cfg.key bad cfg.batch (known.drop (run cfg (init version) ts).iter.index)
        (run cfg (init version) ts).iter).stack.reverse).reverse := by rw [← hf]; rfl
  rw [hn] at hst
  generalize (fillLoop cfg.key bad (some n) (known.drop (run cfg (init version) ts).iter.index)
        (run cfg (init version) ts).iter).stack.reverse = v at hst
  subst hk
  have hp := hs.sorted v
  cases hv : cfg.sort v with
  | nil => 
    left
    rw [hst]; simp [cut, hv]
  | cons x xs =>
    rw [hv] at hp
    have hc : cut cfg.sort (some n) v = retain n x.1 0 (x :: xs) := by unfold cut; rw [hv]
    rw [hc] at hst
    rcases retain_limit n x.1 (x :: xs) 0 (Nat.zero_le _) hp with h | h
    · left; rw [hst]; simpa using h
    · right
      have hall : ∀ z ∈ it.stack, z.1 = x.1 := by
        intro z hz
        rw [hst, List.mem_reverse] at hz
        have h1 := h z hz
        have h2 := (retain_sublist n x.1 (x :: xs) 0).subset hz
        rcases List.mem_cons.mp h2 with rfl | h2
        · rfl
        · have := (List.pairwise_cons.mp hp).1 z h2
          omega
      intro p hp q hq
      obtain ⟨a, ha, rfl⟩ := List.mem_map.mp hp
      obtain ⟨b, hb, rfl⟩ := List.mem_map.mp hq
      rw [← haf a ha, ← haf b hb, hall a ha, hall b hb]

/-- C33: a batch of five of the seven peers. -/
example : ((fill sortDesc Example.p0 Example.good (some 5) Example.seven (init 0).iter).stack.map (·.2)).length ≤ 5 := by
  rcases C33_batch_limit (cfg := Example.cfgBatch) sortDesc_ok 0 [] Example.good Example.seven 5 rfl with h | h
  · exact h
  · decide +kernel

end Verif.Lookup
