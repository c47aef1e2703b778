import Verif.Proofs.SearchNet
import Verif.Props.Lookup

/-!
# C117: a search reaches the peers it hears of

Peers answer a search with the value or with peers they know. The searching node adds these to its known
peers, and a search with `use_new_peers` should ask them too, and so on, until the value is found or
nobody is left to ask. All theorems are about every network, every order of completion, and every
interleaving with peers becoming known by other means.
-/
namespace Verif.SearchNet
open Verif.Lookup

/-- Peers at most `n` answers away from the peers known at the beginning. -/
inductive Near (net : Bytes → Reply) (known : List Bytes) : Nat → Bytes → Prop where
  | known (n : Nat) (p : Bytes) (h : p ∈ known) : Near net known n p
  | named (n : Nat) (p q : Bytes) (l : List Bytes) (hq : Near net known n q) (hr : net q = .nodes l) (hp : p ∈ l) :
    Near net known (n + 1) p

/-- No peer is ever bad during the events. -/
def NoBad (evs : List Ev) : Prop := ∀ e ∈ evs, ∀ p, e.fine p

/-- A search that begins with the peers `known`. -/
abbrev search (cfg : Cfg) (net : Bytes → Reply) (known : List Bytes) (bad : Bytes → Bool) (evs : List Ev) : World :=
  run cfg net (start cfg known bad) evs

/-- C117 as stated: a search that takes all peers and new peers has asked, when it is over, every peer
that can be reached through answers. -/
def C117_full : Prop :=
  ∀ (cfg : Cfg) (net : Bytes → Reply) (known : List Bytes) (evs : List Ev), SortOk cfg.sort →
    cfg.batch = none → cfg.useNew = true → known.Nodup → NoBad evs →
    Over cfg (search cfg net known (fun _ => false) evs) →
    ∀ n p, Near net known n p → p ∈ (search cfg net known (fun _ => false) evs).stream.asked

/-- C117: the first peer a search hears of is never asked by it, whatever the settings, the network and
the order of events, and whoever names it and how often. -/
theorem C117_first_heard_of_partial {cfg : Cfg} (hs : SortOk cfg.sort) (net : Bytes → Reply) {known : List Bytes}
    (hn : known.Nodup) (bad : Bytes → Bool) (evs : List Ev) {p : Bytes}
    (hp : (search cfg net known bad evs).known[known.length]? = some p) :
    p ∉ (search cfg net known bad evs).stream.asked ∧ p ∉ (search cfg net known bad evs).found := by
  have h := run_inv (net := net) hs evs (start_inv hs hn bad)
  have hm : known.length ∈ (search cfg net known bad evs).marks := by
    have key : ∀ (evs : List Ev) (w : World), known.length ∈ w.marks → known.length ∈ (run cfg net w evs).marks := by
      intro evs
      induction evs with
      | nil => intro w h; exact h
      | cons e evs ih =>
        intro w h
        refine ih (step cfg net w e) ?_
        rcases step_marks cfg net w e with h1 | ⟨-, m, h1⟩ <;> rw [h1]
        · exact h
        · exact List.mem_append_left _ h
    exact key evs _ List.mem_cons_self
  have ht := run_told hs evs (start_inv hs hn bad) (start_told cfg net known bad)
  have ha : p ∉ (search cfg net known bad evs).stream.asked := by
    intro ha
    obtain ⟨i, h1, -, h3⟩ := h.pos p (List.mem_append_left _ ha)
    have := (List.getElem?_inj (List.getElem?_eq_some_iff.mp hp).1 h.nodup).mp (hp.trans h1.symm)
    exact h3 (this ▸ hm)
  refine ⟨ha, fun hf => ha ?_⟩
  rw [ht.found] at hf
  exact (h.sent.mem_iff).mpr (List.mem_append_left _ (List.mem_filter.mp hf).1)

/-- C117: exactly which peers are asked when nothing is cut off. The known peers were read some times
(`marks` holds how many there were each time). A peer that was not bad is asked if and only if it was
known at one of these times and was not the first one added after one of these times. -/
theorem C117_asked_exactly_partial {cfg : Cfg} (hs : SortOk cfg.sort) (hb : cfg.batch = none) (net : Bytes → Reply)
    {known : List Bytes} (hn : known.Nodup) (bad : Bytes → Bool) (evs : List Ev)
    (ho : Over cfg (search cfg net known bad evs)) {p : Bytes} (hp : bad p = false) (hf : ∀ e ∈ evs, e.fine p)
    {i : Nat} (hi : (search cfg net known bad evs).known[i]? = some p) :
    p ∈ (search cfg net known bad evs).stream.asked ↔
      (∃ m ∈ (search cfg net known bad evs).marks, i < m) ∧ i ∉ (search cfg net known bad evs).marks := by
  have h := run_inv (net := net) hs evs (start_inv hs hn bad)
  have ht := run_takes (net := net) hs hb evs (start_inv hs hn bad) (start_takes hs hb bad hp) hf
  have hseen := (over_seen h ho).1
  rw [← hseen]
  constructor
  · intro ha
    obtain ⟨j, h1, h2, h3⟩ := h.pos p ha
    have := (List.getElem?_inj (List.getElem?_eq_some_iff.mp hi).1 h.nodup).mp (hi.trans h1.symm)
    subst this
    exact ⟨⟨_, h.mark, h2⟩, h3⟩
  · rintro ⟨⟨m, h1, h2⟩, h3⟩
    exact ht i hi (Nat.lt_of_lt_of_le h2 (h.marks m h1)) h3

/-- C117: the peers known at the beginning are asked, and those among them that hold a value give it. -/
theorem C117_known_at_start_partial {cfg : Cfg} (hs : SortOk cfg.sort) (hb : cfg.batch = none) (net : Bytes → Reply)
    {known : List Bytes} (hn : known.Nodup) (bad : Bytes → Bool) (evs : List Ev)
    (ho : Over cfg (search cfg net known bad evs)) {p : Bytes} (hp : bad p = false) (hf : ∀ e ∈ evs, e.fine p)
    (hk : p ∈ known) :
    p ∈ (search cfg net known bad evs).stream.asked ∧
      (net p = .value → p ∈ (search cfg net known bad evs).found) := by
  have h := run_inv (net := net) hs evs (start_inv hs hn bad)
  have ht := run_told hs evs (start_inv hs hn bad) (start_told cfg net known bad)
  obtain ⟨i, hi⟩ := List.mem_iff_getElem?.mp hk
  have hlt := (List.getElem?_eq_some_iff.mp hi).1
  have ha : p ∈ (search cfg net known bad evs).stream.asked := by
    refine (C117_asked_exactly_partial hs hb net hn bad evs ho hp hf ((prefix_get h.pre hlt).trans hi)).mpr ?_
    refine ⟨⟨_, h.mark, Nat.lt_of_lt_of_le hlt h.first⟩, fun hm => ?_⟩
    have := h.low i hm
    omega
  refine ⟨ha, fun hv => ?_⟩
  rw [ht.found]
  exact List.mem_filter.mpr ⟨(over_seen h ho).2.mem_iff.mp ha, by simpa using hv⟩

/-- C117: with new peers, whatever an asked peer named is known, and asked unless it was the first one
added after a reading. -/
theorem C117_named_partial {cfg : Cfg} (hs : SortOk cfg.sort) (hb : cfg.batch = none) (hu : cfg.useNew = true)
    (net : Bytes → Reply) {known : List Bytes} (hn : known.Nodup) (bad : Bytes → Bool) (evs : List Ev)
    (ho : Over cfg (search cfg net known bad evs)) {p q : Bytes} {l : List Bytes}
    (hq : q ∈ (search cfg net known bad evs).stream.asked) (hr : net q = .nodes l) (hp : p ∈ l)
    (hg : bad p = false) (hf : ∀ e ∈ evs, e.fine p) :
    p ∈ (search cfg net known bad evs).stream.asked ∨
      ∃ m ∈ (search cfg net known bad evs).marks, (search cfg net known bad evs).known[m]? = some p := by
  have h := run_inv (net := net) hs evs (start_inv hs hn bad)
  have ht := run_told hs evs (start_inv hs hn bad) (start_told cfg net known bad)
  obtain ⟨i, hv, hi⟩ := ht.read hu q ((over_seen h ho).2.mem_iff.mp hq) l hr p hp
  by_cases hm : i ∈ (search cfg net known bad evs).marks
  · exact .inr ⟨i, hm, hi⟩
  · exact .inl ((C117_asked_exactly_partial hs hb net hn bad evs ho hg hf hi).mpr ⟨⟨_, h.mark, hv⟩, hm⟩)

/-- C117: replication helps. If at least as many peers hold the value as the known peers were read
times, and each of them was known at the beginning or named by an asked peer, one of them gives it. -/
theorem C117_replicated_partial {cfg : Cfg} (hs : SortOk cfg.sort) (hb : cfg.batch = none) (hu : cfg.useNew = true)
    (net : Bytes → Reply) {known : List Bytes} (hn : known.Nodup) (bad : Bytes → Bool) (evs : List Ev)
    (ho : Over cfg (search cfg net known bad evs)) (H : List Bytes) (hH : H.Nodup)
    (hlen : (search cfg net known bad evs).marks.length ≤ H.length)
    (hh : ∀ p ∈ H, net p = .value ∧ bad p = false ∧ (∀ e ∈ evs, e.fine p) ∧
      (p ∈ known ∨ ∃ q ∈ (search cfg net known bad evs).stream.asked, ∃ l, net q = .nodes l ∧ p ∈ l)) :
    ∃ p ∈ H, p ∈ (search cfg net known bad evs).found := by
  have h : Inv known (search cfg net known bad evs) := run_inv (net := net) hs evs (start_inv hs hn bad)
  have ht : Told cfg net (search cfg net known bad evs) := run_told hs evs (start_inv hs hn bad) (start_told cfg net known bad)
  generalize hw : search cfg net known bad evs = w at *
  by_contra hno
  have hasked : ∀ p ∈ H, p ∉ w.stream.asked := by
    intro p hp ha
    refine hno ⟨p, hp, ?_⟩
    rw [ht.found]
    exact List.mem_filter.mpr ⟨(over_seen h ho).2.mem_iff.mp ha, by simpa using (hh p hp).1⟩
  -- every holder sits at a mark below the last one
  have hpos : ∀ p ∈ H, ∃ m ∈ w.marks.erase w.stream.version, w.known[m]? = some p := by
    intro p hp
    obtain ⟨-, hg, hf, hk⟩ := hh p hp
    have hread : ∃ i, i < w.stream.version ∧ w.known[i]? = some p := by
      rcases hk with hk | ⟨q, hq, l, hl, hpl⟩
      · obtain ⟨i, hi⟩ := List.mem_iff_getElem?.mp hk
        have hlt := (List.getElem?_eq_some_iff.mp hi).1
        exact ⟨i, Nat.lt_of_lt_of_le hlt h.first, (prefix_get h.pre hlt).trans hi⟩
      · exact ht.read hu q ((over_seen h ho).2.mem_iff.mp hq) l hl p hpl
    obtain ⟨i, hv, hi⟩ := hread
    have hm : i ∈ w.marks := by
      by_contra hm
      refine hasked p hp ?_
      subst hw
      exact (C117_asked_exactly_partial hs hb net hn bad evs ho hg hf hi).mpr ⟨⟨_, h.mark, hv⟩, hm⟩
    exact ⟨i, (List.mem_erase_of_ne (by omega)).mpr hm, hi⟩
  have hsub : H ⊆ (w.marks.erase w.stream.version).filterMap (fun m => w.known[m]?) := by
    intro p hp
    obtain ⟨m, h1, h2⟩ := hpos p hp
    exact List.mem_filterMap.mpr ⟨m, h1, h2⟩
  have h1 := (List.subperm_of_subset hH hsub).length_le
  have h2 := List.length_filterMap_le (fun m => w.known[m]?) (w.marks.erase w.stream.version)
  have h3 := List.length_erase_of_mem h.mark
  have h4 : 0 < w.marks.length := List.length_pos_of_mem h.mark
  omega

/-- C117: without `use_new_peers` only peers known at the beginning are asked. -/
theorem C117_no_hops_partial {cfg : Cfg} (hs : SortOk cfg.sort) (hu : cfg.useNew = false) (net : Bytes → Reply)
    {known : List Bytes} (hn : known.Nodup) (bad : Bytes → Bool) (evs : List Ev) :
    ∀ p ∈ (search cfg net known bad evs).stream.asked, p ∈ known := by
  intro p hp
  have h := run_inv (net := net) hs evs (start_inv hs hn bad)
  have hm : ∀ (evs : List Ev) (w : World), Inv known w → w.marks = [known.length] →
      (run cfg net w evs).marks = [known.length] := by
    intro evs
    induction evs with
    | nil => intro w _ h; exact h
    | cons e evs ih =>
      intro w h hw
      refine ih (step cfg net w e) (step_inv hs h e) ?_
      rcases step_marks cfg net w e with h1 | ⟨h1, -⟩
      · rw [h1]; exact hw
      · rw [hu] at h1; cases h1
  have hmark := h.mark
  have hmm : (run cfg net (start cfg known bad) evs).marks = [known.length] := hm evs _ (start_inv hs hn bad) rfl
  rw [hmm] at hmark
  obtain ⟨i, h1, h2, -⟩ := h.pos p (List.mem_append_left _ hp)
  rw [List.mem_singleton.mp hmark] at h2
  exact List.mem_iff_getElem?.mpr ⟨i, (prefix_get h.pre h2).symm.trans h1⟩

/-! ### Repeated searches -/

/-- One search and the peers that become known afterwards. -/
structure Round where
  evs : List Ev
  more : List Bytes

/-- The known peers after some searches. -/
def knownAfter (cfg : Cfg) (net : Bytes → Reply) (known : List Bytes) (rs : List Round) : List Bytes :=
  rs.foldl (fun k r => learnAll (search cfg net k (fun _ => false) r.evs).known r.more) known

/-- Every search is over before the next one begins, and no peer is bad. -/
def Complete (cfg : Cfg) (net : Bytes → Reply) : List Bytes → List Round → Prop
  | _, [] => True
  | known, r :: rs => NoBad r.evs ∧ Over cfg (search cfg net known (fun _ => false) r.evs) ∧
    Complete cfg net (learnAll (search cfg net known (fun _ => false) r.evs).known r.more) rs

theorem knownAfter_near {cfg : Cfg} (hs : SortOk cfg.sort) (hb : cfg.batch = none) (net : Bytes → Reply)
    (rs : List Round) : ∀ {known : List Bytes}, known.Nodup → Complete cfg net known rs →
      (knownAfter cfg net known rs).Nodup ∧ ∀ n, n ≤ rs.length → ∀ p, Near net known n p →
        p ∈ knownAfter cfg net known rs := by
  induction rs with
  | nil =>
    intro known hn _
    refine ⟨hn, fun n hle p hp => ?_⟩
    cases hp with
    | known _ _ h => exact h
    | named n _ q l hq hr hp => simp at hle
  | cons r rs ih =>
    intro known hn hc
    obtain ⟨hg, ho, hc⟩ := hc
    have h := run_inv (net := net) hs r.evs (start_inv hs hn (fun _ => false))
    have ht := run_told hs r.evs (start_inv hs hn (fun _ => false)) (start_told cfg net known (fun _ => false))
    obtain ⟨h1, h2⟩ := ih (learnAll_nodup r.more h.nodup) hc
    refine ⟨h1, fun n hle p hp => ?_⟩
    -- what is known or named once is known in the next round
    have hstep : ∀ n p, Near net known (n + 1) p →
        Near net (learnAll (search cfg net known (fun _ => false) r.evs).known r.more) n p := by
      intro n
      induction n with
      | zero =>
        intro p hp
        refine .known _ _ ((learnAll_prefix _ _).subset ?_)
        cases hp with
        | known _ _ hk => exact h.pre.subset hk
        | named _ _ q l hq hr hpl =>
          cases hq with
          | known _ _ hk =>
            have ha := (C117_known_at_start_partial hs hb net hn (fun _ => false) r.evs ho rfl
              (fun e he => hg e he q) hk).1
            exact ht.known q ((over_seen h ho).2.mem_iff.mp ha) l hr p hpl
      | succ n ihn =>
        intro p hp
        cases hp with
        | known _ _ hk => exact .known _ _ ((learnAll_prefix _ _).subset (h.pre.subset hk))
        | named _ _ q l hq hr hpl => exact .named _ _ q l (ihn q hq) hr hpl
    cases n with
    | zero =>
      refine h2 0 (Nat.zero_le _) p (.known _ _ ((learnAll_prefix _ _).subset (h.pre.subset ?_)))
      cases hp with
      | known _ _ hk => exact hk
    | succ n => exact h2 n (by simpa using hle) p (hstep n p hp)

/-- C117: repeating the search goes as far as wished: a peer at most `n` answers away is asked by the
search that follows `n` complete ones, with or without `use_new_peers`, and gives the value if it
holds it. -/
theorem C117_rounds_partial {cfg : Cfg} (hs : SortOk cfg.sort) (hb : cfg.batch = none) (net : Bytes → Reply)
    {known : List Bytes} (hn : known.Nodup) (rs : List Round) (hc : Complete cfg net known rs) (evs : List Ev)
    (hg : NoBad evs) (ho : Over cfg (search cfg net (knownAfter cfg net known rs) (fun _ => false) evs))
    {p : Bytes} (hp : Near net known rs.length p) :
    p ∈ (search cfg net (knownAfter cfg net known rs) (fun _ => false) evs).stream.asked ∧
      (net p = .value → p ∈ (search cfg net (knownAfter cfg net known rs) (fun _ => false) evs).found) := by
  obtain ⟨h1, h2⟩ := knownAfter_near hs hb net rs hn hc
  exact C117_known_at_start_partial hs hb net h1 (fun _ => false) evs ho rfl (fun e he => hg e he p)
    (h2 _ (Nat.le_refl _) p hp)

/-! ### Searches end -/

theorem over_iff {known0 : List Bytes} {w : World} {cfg : Cfg} (h : Inv known0 w) : Over cfg w ↔ inFlight w = [] :=
  (turn_idle h.started _ _).2

/-- C117: a search among finitely many peers is over as soon as that many requests are over, however
they are ordered; it asks no peer twice, hands out one value for each asked peer that holds it and
nothing else. -/
theorem C117_ends {cfg : Cfg} (hs : SortOk cfg.sort) (net : Bytes → Reply) {known : List Bytes} (hn : known.Nodup)
    (bad : Bytes → Bool) (U : List Bytes) (hU : ∀ p ∈ known, p ∈ U)
    (hnet : ∀ q l, net q = .nodes l → ∀ p ∈ l, p ∈ U) (reqs : List (Nat × (Bytes → Bool)))
    (hlen : U.length ≤ reqs.length) :
    Over cfg (search cfg net known bad (reqs.map fun r => .complete r.1 r.2)) ∧
    (search cfg net known bad (reqs.map fun r => .complete r.1 r.2)).stream.asked.Nodup ∧
    (search cfg net known bad (reqs.map fun r => .complete r.1 r.2)).found.Perm
      ((search cfg net known bad (reqs.map fun r => .complete r.1 r.2)).stream.asked.filter
        fun q => decide (net q = .value)) := by
  have key : ∀ (reqs : List (Nat × (Bytes → Bool))) (w : World), Inv known w → (∀ p ∈ w.known, p ∈ U) →
      Over cfg (run cfg net w (reqs.map fun r => .complete r.1 r.2)) ∨
        (run cfg net w (reqs.map fun r => .complete r.1 r.2)).done.length = w.done.length + reqs.length ∧
        ∀ p ∈ (run cfg net w (reqs.map fun r => .complete r.1 r.2)).known, p ∈ U := by
    intro reqs
    induction reqs with
    | nil => intro w _ hw; exact .inr ⟨rfl, hw⟩
    | cons r reqs ih =>
      intro w h hw
      cases hq : (inFlight w)[r.1 % (inFlight w).length]? with
      | none =>
        have hno : inFlight w = [] := by
          by_contra hne
          have hpos : 0 < (inFlight w).length := List.length_pos_iff.mpr hne
          rw [List.getElem?_eq_getElem (Nat.mod_lt _ hpos)] at hq
          cases hq
        left
        have hstay : ∀ reqs : List (Nat × (Bytes → Bool)), run cfg net w (reqs.map fun r => .complete r.1 r.2) = w := by
          intro reqs
          induction reqs with
          | nil => rfl
          | cons r reqs ih =>
            have : step cfg net w (.complete r.1 r.2) = w := by
              unfold step
              rw [hno]
              rfl
            exact (congrArg (fun w => run cfg net w _) this).trans ih
        rw [hstay (r :: reqs)]
        exact (over_iff h).mpr hno
      | some q =>
        have hs1 := step_inv (net := net) hs h (.complete r.1 r.2)
        have heq := step_complete (cfg := cfg) (net := net) h.started (bad := r.2) hq
        have hw' : ∀ p ∈ (step cfg net w (.complete r.1 r.2)).known, p ∈ U := by
          rw [heq]
          intro p hp
          cases hr : net q with
          | nodes l =>
            simp only [hr, Reply.learn] at hp
            rcases (mem_learnAll l).mp hp with hp | hp
            · exact hw p hp
            · exact hnet q l hr p hp
          | silent => simp only [hr, Reply.learn] at hp; exact hw p hp
          | value => simp only [hr, Reply.learn] at hp; exact hw p hp
        rcases ih _ hs1 hw' with h1 | ⟨h1, h2⟩
        · exact .inl h1
        · refine .inr ⟨?_, h2⟩
          refine Eq.trans h1 ?_
          rw [heq]
          simp only [List.length_append, List.length_cons, List.length_nil]
          omega
  have hi := start_inv (cfg := cfg) hs hn bad
  have h := run_inv (net := net) hs (reqs.map fun r => .complete r.1 r.2) hi
  have ht := run_told hs (reqs.map fun r => .complete r.1 r.2) hi (start_told cfg net known bad)
  have bound : ∀ w : World, Inv known w → (∀ p ∈ w.known, p ∈ U) → w.done.length + w.stream.futures.length ≤ U.length := by
    intro w h hw
    have h1 : w.stream.asked.Nodup := (List.sublist_append_left _ _).nodup h.seen
    have h2 : w.stream.asked ⊆ U := by
      intro p hp
      obtain ⟨i, h3, -⟩ := h.pos p (List.mem_append_left _ hp)
      exact hw p (List.mem_iff_getElem?.mpr ⟨i, h3⟩)
    have h4 := (List.subperm_of_subset h1 h2).length_le
    rw [h.sent.length_eq, List.length_append] at h4
    exact h4
  have hover : Over cfg (search cfg net known bad (reqs.map fun r => .complete r.1 r.2)) := by
    rcases key reqs _ hi hU with h1 | ⟨h1, h2⟩
    · exact h1
    · rw [over_iff h]
      have h3 := bound _ (launch_inv h) h2
      have h4 : (run cfg net (start cfg known bad) (reqs.map fun r => .complete r.1 r.2)).done.length = reqs.length := by
        rw [h1]; exact Nat.zero_add _
      simp only [h4] at h3
      refine List.length_eq_zero_iff.mp ?_
      unfold inFlight
      unfold fired at h3
      omega
  refine ⟨hover, (List.sublist_append_left _ _).nodup h.seen, ?_⟩
  rw [ht.found]
  exact ((over_seen h hover).2.filter _).symm

/-! ### A search that misses the only holder, and examples -/

namespace Example

def ids (k : UInt8) : Bytes := List.replicate 32 k

def wholeCfg : Cfg := ⟨sortDesc, ids 0, none, true⟩

/-- 1 names 2, which holds the value. -/
def chain (p : Bytes) : Reply := if p = ids 1 then .nodes [ids 2] else if p = ids 2 then .value else .silent

def one : List Ev := [.complete 0 fun _ => false]

/-- 1 names 2 and 3, both name 4 and 5; 3 to 5 hold the value. -/
def wide (p : Bytes) : Reply :=
  if p = ids 1 then .nodes [ids 2, ids 3] else if p = ids 2 then .nodes [ids 4, ids 5]
  else if p = ids 3 ∨ p = ids 4 ∨ p = ids 5 then .value else .silent

def two : List Ev := [.complete 0 fun _ => false, .complete 0 fun _ => false]

theorem noBad {evs : List Ev} (h : evs = one ∨ evs = two) : NoBad evs := by
  intro e he p
  rcases h with rfl | rfl <;> simp only [one, two, List.mem_cons, List.not_mem_nil, or_false, or_self] at he <;>
    subst he <;> exact rfl

end Example

open Example

theorem holder_missed : Over wholeCfg (search wholeCfg chain [ids 1] (fun _ => false) one) ∧
    (search wholeCfg chain [ids 1] (fun _ => false) one).stream.asked = [ids 1] ∧
    (search wholeCfg chain [ids 1] (fun _ => false) one).known = [ids 1, ids 2] := by
  unfold Over; decide +kernel

/-- C117 as stated is false: the only known peer names the only holder of the value, and the search ends
without asking it. -/
theorem C117_full_false : ¬ C117_full := by
  intro h
  have h1 := h wholeCfg chain [ids 1] one sortDesc_ok rfl rfl (by decide) (noBad (.inl rfl)) holder_missed.1 1 (ids 2)
    (.named 0 (ids 2) (ids 1) [ids 2] (.known 0 _ (by decide)) (by decide) (by decide))
  rw [holder_missed.2.1] at h1
  exact absurd h1 (by decide)

/-- The holder is the first peer heard of. -/
example := C117_first_heard_of_partial (cfg := wholeCfg) sortDesc_ok chain (known := [ids 1]) (by decide) (fun _ => false) one
  (p := ids 2) (by rw [holder_missed.2.2]; rfl)

theorem second_found : Over wholeCfg (search wholeCfg wide [ids 1] (fun _ => false) two) ∧
    (search wholeCfg wide [ids 1] (fun _ => false) two).stream.asked = [ids 1, ids 3] ∧
    (search wholeCfg wide [ids 1] (fun _ => false) two).found = [ids 3] ∧
    (search wholeCfg wide [ids 1] (fun _ => false) two).marks = [1, 3] ∧
    (search wholeCfg wide [ids 1] (fun _ => false) two).known = [ids 1, ids 2, ids 3] := by
  unfold Over; decide +kernel

/-- The second of two named peers is asked, the first is not. -/
example := C117_asked_exactly_partial (cfg := wholeCfg) sortDesc_ok rfl wide (known := [ids 1]) (by decide) (fun _ => false) two
  second_found.1 (p := ids 3) rfl (fun e he => noBad (.inr rfl) e he _) (i := 2) (by rw [second_found.2.2.2.2]; rfl)

example := C117_known_at_start_partial (cfg := wholeCfg) sortDesc_ok rfl wide (known := [ids 1]) (by decide) (fun _ => false) two
  second_found.1 (p := ids 1) rfl (fun e he => noBad (.inr rfl) e he _) (by decide)

example := C117_named_partial (cfg := wholeCfg) sortDesc_ok rfl rfl wide (known := [ids 1]) (by decide) (fun _ => false) two
  second_found.1 (p := ids 2) (q := ids 1) (l := [ids 2, ids 3]) (by rw [second_found.2.1]; decide) (by decide) (by decide) rfl
  (fun e he => noBad (.inr rfl) e he _)

/-- 1 names 2 and 3, which both hold the value; the known peers are read twice. -/
def twice (p : Bytes) : Reply :=
  if p = ids 1 then .nodes [ids 2, ids 3] else if p = ids 2 ∨ p = ids 3 then .value else .silent

theorem twice_over : Over wholeCfg (search wholeCfg twice [ids 1] (fun _ => false) two) ∧
    (search wholeCfg twice [ids 1] (fun _ => false) two).stream.asked = [ids 1, ids 3] ∧
    (search wholeCfg twice [ids 1] (fun _ => false) two).marks = [1, 3] := by
  unfold Over; decide +kernel

example := C117_replicated_partial (cfg := wholeCfg) sortDesc_ok rfl rfl twice (known := [ids 1]) (by decide) (fun _ => false) two
  twice_over.1 [ids 2, ids 3] (by decide) (by rw [twice_over.2.2]; decide) (by
    intro p hp
    have hp' : p = ids 2 ∨ p = ids 3 := by simpa using hp
    refine ⟨?_, rfl, fun e he => noBad (.inr rfl) e he _, .inr ⟨ids 1, by rw [twice_over.2.1]; decide, [ids 2, ids 3],
      by decide, hp⟩⟩
    rcases hp' with rfl | rfl <;> decide)

/-- Without new peers. -/
example := C117_no_hops_partial (cfg := { wholeCfg with useNew := false }) sortDesc_ok rfl wide (known := [ids 1]) (by decide)
  (fun _ => false) two

theorem second_round : knownAfter wholeCfg chain [ids 1] [⟨one, []⟩] = [ids 1, ids 2] ∧
    Over wholeCfg (search wholeCfg chain [ids 1, ids 2] (fun _ => false) two) := by
  unfold Over; decide +kernel

/-- The holder missed above is asked by the second search. -/
example := C117_rounds_partial (cfg := wholeCfg) sortDesc_ok rfl chain (known := [ids 1]) (by decide) [⟨one, []⟩]
  ⟨noBad (.inl rfl), holder_missed.1, trivial⟩ two (noBad (.inr rfl)) (by rw [second_round.1]; exact second_round.2)
  (p := ids 2) (.named 0 (ids 2) (ids 1) [ids 2] (.known 0 _ (by decide)) (by decide) (by decide))

/-- Two requests are enough among two peers. -/
example := C117_ends (cfg := wholeCfg) sortDesc_ok chain (known := [ids 1]) (by decide) (fun _ => false) [ids 1, ids 2]
  (by decide) (by
    intro q l hq p hp
    unfold chain at hq
    split at hq
    · cases hq; rw [List.mem_singleton.mp hp]; decide
    · split at hq <;> cases hq) [(0, fun _ => false), (3, fun _ => true)] (by decide)

end Verif.SearchNet
