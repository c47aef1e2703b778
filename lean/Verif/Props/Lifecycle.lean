import Verif.Model.Lifecycle
import Mathlib.Tactic.Common

/-!
# C96: background tasks end once nobody uses the nodes
-/
namespace Verif.Lifecycle

/-- No task is left. -/
structure NoTasks (w : World) : Prop where
  receiver : w.receiver = false
  sender : w.sender = false
  packets : w.packets = 0
  dhts : ∀ d ∈ w.dhts, d.task = false
  ovls : ∀ v ∈ w.ovls, v.task = false

/-- C96, full statement: when the application has dropped everything, the tasks can end. -/
def C96_full : Prop :=
  ∀ ops, appRefs (run init ops) = 0 → ∃ more, (∀ op ∈ more, op.task = true) ∧ NoTasks (run (run init ops) more)

/-! ### What steps do -/

theorem run_append (w : World) (a b : List Op) : run w (a ++ b) = run (run w a) b := by
  unfold run
  rw [List.foldl_append]

/-- `settle` changes the token only. -/
theorem settle_cases (w : World) : settle w = w ∨ refs w = 0 ∧ settle w = { w with cancelled := true } := by
  unfold settle
  split
  · exact .inr ⟨‹_›, rfl⟩
  · exact .inl rfl

theorem mem_modify {α : Type} {l : List α} {i : Nat} {f : α → α} {x : α} (h : x ∈ l.modify i f) :
    x ∈ l ∨ ∃ y ∈ l, x = f y := by
  induction l generalizing i with
  | nil => simp at h
  | cons a l ih =>
    cases i with
    | zero =>
      rw [List.modify_zero_cons] at h
      rcases List.mem_cons.1 h with h | h
      · exact .inr ⟨a, by simp, h⟩
      · exact .inl (by simp [h])
    | succ i =>
      rw [List.modify_succ_cons] at h
      rcases List.mem_cons.1 h with h | h
      · exact .inl (by simp [h])
      · rcases ih h with h | ⟨y, h1, h2⟩
        · exact .inl (by simp [h])
        · exact .inr ⟨y, by simp [h1], h2⟩

/-- Before the start there are no tasks of the ADNL node. -/
theorem unstarted (ops : List Op) : ∀ w : World, (w.started = false → w.receiver = false ∧ w.sender = false ∧ w.packets = 0) →
    (run w ops).started = false → (run w ops).receiver = false ∧ (run w ops).sender = false ∧ (run w ops).packets = 0 := by
  induction ops with
  | nil => intro w h; exact h
  | cons op ops ih =>
    intro w h
    refine ih (step w op) ?_
    have key : (effect w op).started = false → (effect w op).receiver = false ∧ (effect w op).sender = false ∧
        (effect w op).packets = 0 := by
      cases op <;> simp only [effect] <;> (try split) <;> (try split) <;> (try split) <;> simp_all
    unfold step
    rcases settle_cases (effect w op) with e | ⟨-, e⟩ <;> rw [e] <;> exact key

theorem appRefs_pos (w : World) : 0 < appRefs w ↔
    0 < w.handles ∨ (∃ d ∈ w.dhts, 0 < d.handles) ∨ ∃ v ∈ w.ovls, 0 < v.handles := by
  unfold appRefs
  have h1 : 0 < (w.dhts.filter fun d => decide (0 < d.handles)).length ↔ ∃ d ∈ w.dhts, 0 < d.handles := by
    rw [List.length_pos_iff_exists_mem]
    simp
  have h2 : 0 < (w.ovls.filter fun v => decide (0 < v.handles)).length ↔ ∃ v ∈ w.ovls, 0 < v.handles := by
    rw [List.length_pos_iff_exists_mem]
    simp
  rw [← h1, ← h2]
  omega

/-- What the application has lost it cannot get back. -/
theorem appRefs_lost {w : World} {op : Op} (h : 0 < appRefs (effect w op)) : 0 < appRefs w := by
  by_contra hn
  have hn' := hn
  rw [appRefs_pos] at hn' h
  simp only [not_or, not_exists, not_and, Nat.not_lt, Nat.le_zero] at hn'
  obtain ⟨n1, n2, n3⟩ := hn'
  have hd : ∀ i (f : Dht → Dht), (∀ d, d.handles = 0 → (f d).handles = 0) →
      ¬ ∃ d ∈ w.dhts.modify i f, 0 < d.handles := by
    rintro i f hf ⟨d, hm, hp⟩
    rcases mem_modify hm with hm | ⟨y, hy, rfl⟩
    · have := n2 d hm; omega
    · have := hf y (n2 y hy); omega
  have hv : ∀ i (f : Ovl → Ovl), (∀ d, d.handles = 0 → (f d).handles = 0) →
      ¬ ∃ d ∈ w.ovls.modify i f, 0 < d.handles := by
    rintro i f hf ⟨d, hm, hp⟩
    rcases mem_modify hm with hm | ⟨y, hy, rfl⟩
    · have := n3 d hm; omega
    · have := hf y (n3 y hy); omega
  have hd0 : ¬ ∃ d ∈ w.dhts, 0 < d.handles := by rintro ⟨d, hm, hp⟩; have := n2 d hm; omega
  have hv0 : ¬ ∃ d ∈ w.ovls, 0 < d.handles := by rintro ⟨d, hm, hp⟩; have := n3 d hm; omega
  cases op <;> simp only [effect] at h
  case cloneDht i | dropDht i | wakeDht i =>
    rcases h with h | h | h
    · omega
    · refine hd _ _ ?_ h
      intro d hd
      (repeat' split) <;> simp_all
    · exact hv0 h
  case cloneOvl i | dropOvl i | wakeOvl i =>
    rcases h with h | h | h
    · omega
    · exact hd0 h
    · refine hv _ _ ?_ h
      intro d hd
      (repeat' split) <;> simp_all
  case drop =>
    rcases h with h | h | h
    · omega
    · exact hd0 h
    · exact hv0 h
  all_goals
    (repeat' split at h) <;> first
      | exact hn (And.left ‹_›)
      | exact hn ‹_›
      | exact h.elim (fun h => absurd h (by simp [n1])) (fun h => h.elim hd0 hv0)

/-- Without a shutdown a started node is never stopped, and neither is what subscribes to it. -/
structure Busy (w : World) : Prop where
  idle : w.started = false → w.receiver = false ∧ w.sender = false ∧ w.packets = 0
  on : w.started = true → w.receiver = true ∧ w.sender = true ∧ w.cancelled = false
  clear : 0 < appRefs w → w.cancelled = false
  ovls : (w.started = true ∨ 0 < appRefs w) → ∀ v ∈ w.ovls, v.task = true

theorem Busy.settle {w : World} (h : Busy w) : Busy (settle w) := by
  rcases settle_cases w with e | ⟨h0, e⟩
  · rw [e]; exact h
  · have ha : appRefs w = 0 := by unfold refs at h0; omega
    have hs : w.started = false := by
      by_contra hs
      have := (h.on (by simpa using hs)).1
      unfold refs ctx at h0
      rw [this] at h0
      simp at h0
    rw [e]
    exact ⟨h.idle, fun hn => absurd (hs.symm.trans hn) (by simp),
      fun hn => absurd (show 0 < appRefs w from hn) (by omega), h.ovls⟩

theorem Busy.subscribed {w : World} (h : Busy w) (hs : w.started = true ∨ 0 < appRefs w) : subscribed w = true := by
  unfold Lifecycle.subscribed
  split
  · next hst => unfold ctx; rw [(h.on hst).1]; rfl
  · next hst =>
    rcases hs with hs | hs
    · exact absurd hs hst
    · unfold refs; simp; omega

theorem Busy.step {w : World} (h : Busy w) (op : Op) (hop : op ≠ .shutdown) : Busy (step w op) := by
  refine Busy.settle ?_
  have hl := @appRefs_lost w op
  have hst : w.started = true → (effect w op).started = true := by
    cases op <;> simp only [effect] <;> (repeat' split) <;> simp_all
  have hcan : (effect w op).cancelled = w.cancelled := by
    cases op <;> simp only [effect] <;> (repeat' split) <;> simp_all
  have hst' : (effect w op).started = true → w.started = true ∨ 0 < appRefs w := by
    cases op <;> simp only [effect] <;> (repeat' split) <;> simp_all
  refine ⟨?_, ?_, fun hp => by rw [hcan]; exact h.clear (hl hp), ?_⟩
  · intro hs
    have hw : w.started = false := by
      by_contra hw
      rw [hst (by simpa using hw)] at hs
      cases hs
    obtain ⟨i1, i2, i3⟩ := h.idle hw
    revert hs
    cases op <;> simp only [effect] <;> (repeat' split) <;> simp_all
  · intro hs
    have hc : w.cancelled = false := by
      rcases hst' hs with hw | hw
      · exact (h.on hw).2.2
      · exact h.clear hw
    have hon := h.on
    rw [hcan]
    refine ⟨?_, ?_, hc⟩
    · revert hs
      cases op <;> simp only [effect] <;> (repeat' split) <;> simp_all
    · revert hs
      cases op <;> simp only [effect] <;> (repeat' split) <;> simp_all
  · intro hs
    have hw : w.started = true ∨ 0 < appRefs w := by
      rcases hs with hs | hs
      · exact hst' hs
      · exact .inr (hl hs)
    have ho := h.ovls hw
    have hsub := h.subscribed hw
    have hm : ∀ i (f : Ovl → Ovl), (∀ v, v.task = true → (f v).task = true) → ∀ v ∈ w.ovls.modify i f, v.task = true := by
      intro i f hf v hv
      rcases mem_modify hv with hv | ⟨y, hy, rfl⟩
      · exact ho v hv
      · exact hf y (ho y hy)
    cases op <;> simp only [effect]
    case cloneOvl i | dropOvl i | wakeOvl i =>
      apply hm
      intro v hv
      (repeat' split) <;> simp_all
    case newOvl =>
      split
      · intro v hv
        rcases List.mem_append.1 hv with hv | hv
        · exact ho v hv
        · simp at hv; rw [hv]
      · exact ho
    all_goals (repeat' split) <;> exact ho

theorem Busy.run (ops : List Op) : ∀ {w : World}, Busy w → Op.shutdown ∉ ops → Busy (run w ops) := by
  induction ops with
  | nil => intro w h _; exact h
  | cons op ops ih =>
    intro w h hn
    simp only [List.mem_cons, not_or] at hn
    exact ih (h.step op (Ne.symm hn.1)) hn.2

theorem Busy.init : Busy init := by
  refine ⟨fun _ => ⟨rfl, rfl, rfl⟩, fun h => Bool.noConfusion h, fun _ => rfl, fun _ v hv => absurd hv (List.not_mem_nil)⟩

/-- **C96, partial.** Why the statement fails: a started node goes on until `shutdown` is called, whatever
the application drops, and so do the tasks of all overlays: the receiver holds a reference to the node, and its
subscribers. -/
theorem C96_started_never_ends_partial (ops : List Op) (hn : Op.shutdown ∉ ops) (hs : (run init ops).started = true) :
    (run init ops).receiver = true ∧ (run init ops).sender = true ∧ (run init ops).cancelled = false ∧
      ∀ v ∈ (run init ops).ovls, v.task = true := by
  have := Busy.run ops Busy.init hn
  exact ⟨(this.on hs).1, (this.on hs).2.1, (this.on hs).2.2, this.ovls (.inl hs)⟩

example : (run init [.newOvl, .start, .dropOvl 0, .drop, .poll true, .handled, .wakeOvl 0, .poll false]).receiver = true ∧
    appRefs (run init [.newOvl, .start, .dropOvl 0, .drop]) = 0 :=
  ⟨(C96_started_never_ends_partial _ (by decide) (by decide)).1, by decide⟩

/-! ### The task of the DHT node -/

theorem getElem?_modify_some {α : Type} {l : List α} {i j : Nat} {f : α → α} {x : α} (h : l[i]? = some x) :
    (l.modify j f)[i]? = some (if j = i then f x else x) := by
  rw [List.getElem?_modify, h]
  split <;> rfl

theorem dht_step {w : World} (op : Op) {i : Nat} {d : Dht} (h : w.dhts[i]? = some d) :
    ∃ d', (step w op).dhts[i]? = some d' ∧ d'.task = d.task ∧ (d.handles = 0 → d'.handles = 0) ∧
      (d.handles = 0 → subscribed w = false → d'.cleaned = d.cleaned) := by
  have key : ∃ d', (effect w op).dhts[i]? = some d' ∧ d'.task = d.task ∧ (d.handles = 0 → d'.handles = 0) ∧
      (d.handles = 0 → subscribed w = false → d'.cleaned = d.cleaned) := by
    cases op <;> simp only [effect]
    case cloneDht j | dropDht j | wakeDht j =>
      refine ⟨_, getElem?_modify_some h, ?_, ?_, ?_⟩ <;> (repeat' split) <;> simp_all <;> first | omega | (intro h; simp_all)
    case newDht =>
      split
      · refine ⟨d, ?_, rfl, fun h => h, fun _ _ => rfl⟩
        rw [List.getElem?_append_left]
        · exact h
        · exact (List.getElem?_eq_some_iff.1 h).1
      · exact ⟨d, h, rfl, fun h => h, fun _ _ => rfl⟩
    all_goals (repeat' split) <;> exact ⟨d, h, rfl, fun h => h, fun _ _ => rfl⟩
  unfold step
  rcases settle_cases (effect w op) with e | ⟨-, e⟩ <;> rw [e] <;> exact key

/-- Subscribers that are gone do not come back. -/
theorem unsubscribed_step {w : World} (op : Op) (h : subscribed w = false) : subscribed (step w op) = false := by
  have hset : subscribed (step w op) = subscribed (effect w op) := by
    unfold step
    rcases settle_cases (effect w op) with e | ⟨-, e⟩ <;> rw [e] <;> rfl
  rw [hset]
  have hl := @appRefs_lost w op
  unfold subscribed at h ⊢
  split at h
  · next hs =>
    have hst : (effect w op).started = true := by
      cases op <;> simp only [effect] <;> (repeat' split) <;> simp_all
    rw [if_pos hst]
    unfold ctx at h ⊢
    simp only [Bool.or_eq_false_iff, decide_eq_false_iff_not, Nat.not_lt, Nat.le_zero] at h ⊢
    cases op <;> simp only [effect] <;> (repeat' split) <;> simp_all
  · next hs =>
    simp only [decide_eq_false_iff_not, Nat.not_lt, Nat.le_zero] at h
    have ha : appRefs w = 0 := by unfold refs at h; omega
    have hc : ctx w = false := by
      unfold refs at h
      by_contra hc
      simp [hc] at h
    have hst : (effect w op).started = false := by
      cases op <;> simp only [effect] <;> (repeat' split) <;> simp_all
    rw [if_neg (by rw [hst]; simp)]
    have hc' : ctx (effect w op) = false := by
      unfold ctx at hc ⊢
      simp only [Bool.or_eq_false_iff, decide_eq_false_iff_not, Nat.not_lt, Nat.le_zero] at hc ⊢
      cases op <;> simp only [effect] <;> (repeat' split) <;> simp_all
    have : ¬ 0 < appRefs (effect w op) := fun hp => by have := hl hp; omega
    unfold refs
    rw [hc']
    simp
    omega

/-- **C96, partial.** Why the statement fails even with `shutdown`: the cleaning task of a DHT node never ends,
and after the node is gone it wakes up for nothing. -/
theorem C96_dht_never_ends_partial (ops : List Op) : ∀ (w : World) (i : Nat) (d : Dht), w.dhts[i]? = some d →
    d.task = true → ∃ d', (run w ops).dhts[i]? = some d' ∧ d'.task = true ∧
      (d.handles = 0 → subscribed w = false → d'.handles = 0 ∧ d'.cleaned = d.cleaned) := by
  induction ops with
  | nil => intro w i d h ht; exact ⟨d, h, ht, fun h _ => ⟨h, rfl⟩⟩
  | cons op ops ih =>
    intro w i d h ht
    obtain ⟨d', h1, h2, h3, h4⟩ := dht_step op h
    obtain ⟨d'', g1, g2, g3⟩ := ih (step w op) i d' h1 (h2.trans ht)
    refine ⟨d'', g1, g2, fun e1 e2 => ?_⟩
    have := g3 (h3 e1) (unsubscribed_step op e2)
    exact ⟨this.1, this.2.trans (h4 e1 e2)⟩

example : ∃ d', (run init ([.newDht, .start, .wakeDht 0, .shutdown, .dropDht 0, .drop, .poll false] ++ [.wakeDht 0])).dhts[0]? = some d' ∧
    d'.task = true ∧ d'.cleaned = 1 := by
  rw [run_append]
  obtain ⟨d', h1, h2, h3⟩ := C96_dht_never_ends_partial [.wakeDht 0]
    (run init [.newDht, .start, .wakeDht 0, .shutdown, .dropDht 0, .drop, .poll false]) 0 ⟨0, true, 1⟩ (by decide) rfl
  exact ⟨d', h1, h2, (h3 rfl (by decide)).2⟩

/-- C96 is violated, by dropping a DHT node. -/
theorem C96_full_false : ¬ C96_full := by
  intro h
  obtain ⟨more, -, hno⟩ := h [.newDht, .dropDht 0, .drop] (by decide)
  obtain ⟨d', h1, h2, -⟩ := C96_dht_never_ends_partial more (run init [.newDht, .dropDht 0, .drop]) 0 ⟨0, true, 0⟩
    (by decide) rfl
  have := hno.dhts d' (List.mem_of_getElem? h1)
  rw [h2] at this
  cases this

theorem started_run (ops : List Op) : ∀ w : World, w.started = true → (run w ops).started = true := by
  induction ops with
  | nil => intro w h; exact h
  | cons op ops ih =>
    intro w hw
    refine ih (step w op) ?_
    have hst : (effect w op).started = true := by
      cases op <;> simp only [effect] <;> (repeat' split) <;> simp_all
    unfold step
    rcases settle_cases (effect w op) with e | ⟨-, e⟩ <;> rw [e] <;> exact hst

/-- C96 is also violated without DHT nodes: a started node without handles still receives. -/
theorem C96_full_false_without_dht : ¬ ∀ ops, Op.newDht ∉ ops → appRefs (run init ops) = 0 →
    ∃ more, (∀ op ∈ more, op.task = true) ∧ NoTasks (run (run init ops) more) := by
  intro h
  obtain ⟨more, ht, hno⟩ := h [.start, .drop] (by decide) (by decide)
  have hs := started_run more (run init [.start, .drop]) (by decide)
  rw [← run_append] at hno hs
  have hn : Op.shutdown ∉ [.start, .drop] ++ more := by
    intro hm
    rcases List.mem_append.1 hm with hm | hm
    · revert hm; decide
    · have := ht _ hm; cases this
  have := (C96_started_never_ends_partial _ hn hs).1
  rw [hno.receiver] at this
  cases this

/-! ### What does end -/

/-- A round in which no datagram is there and nothing is to be sent: both tasks of the ADNL node are polled,
the packets are handled, and the tasks of the overlays wake up. -/
def quietRound (w : World) : List Op :=
  [.poll false, .pollSender false] ++ List.replicate w.packets .handled ++ (List.range w.ovls.length).map .wakeOvl

theorem run_handled (n : Nat) : ∀ w : World, w.packets ≤ n → ∃ b, run w (List.replicate n .handled) =
    { w with packets := 0, cancelled := b } ∧ (w.cancelled = true → b = true) := by
  induction n with
  | zero =>
    intro w h
    refine ⟨w.cancelled, ?_, fun h => h⟩
    cases w
    simp_all [run]
  | succ n ih =>
    intro w h
    have : ∃ b, step w .handled = { w with packets := w.packets - 1, cancelled := b } ∧ (w.cancelled = true → b = true) := by
      unfold step
      rcases settle_cases (effect w .handled) with e | ⟨-, e⟩ <;> rw [e]
      · exact ⟨w.cancelled, rfl, fun h => h⟩
      · exact ⟨true, rfl, fun _ => rfl⟩
    obtain ⟨b, e, hb⟩ := this
    obtain ⟨b', e', hb'⟩ := ih (step w .handled) (by rw [e]; simp only; omega)
    refine ⟨b', ?_, fun h => hb' (by rw [e]; exact hb h)⟩
    rw [List.replicate_succ]
    unfold run at e' ⊢
    rw [List.foldl_cons, e', e]

/-- Waking the tasks of overlays nobody holds ends them. -/
theorem run_wake (w : World) (hsub : subscribed w = false) (hh : ∀ v ∈ w.ovls, v.handles = 0) : ∀ n, n ≤ w.ovls.length →
    ∃ l b, run w ((List.range n).map .wakeOvl) = { w with ovls := l, cancelled := b } ∧ l.length = w.ovls.length ∧
      subscribed (run w ((List.range n).map .wakeOvl)) = false ∧ (∀ v ∈ l, v.handles = 0) ∧
      ∀ i v, i < n → l[i]? = some v → v.task = false := by
  intro n
  induction n with
  | zero =>
    intro _
    exact ⟨w.ovls, w.cancelled, rfl, rfl, hsub, hh, fun i v h => absurd h (Nat.not_lt_zero i)⟩
  | succ n ih =>
    intro hn
    obtain ⟨l, b, e, hl, hs, h0, ht⟩ := ih (by omega)
    rw [List.range_succ, List.map_append, run_append]
    have hs' := unsubscribed_step (.wakeOvl n) hs
    rw [e] at hs hs' ⊢
    simp only [List.map_cons, List.map_nil]
    have e2 : ∃ b', run { w with ovls := l, cancelled := b } [.wakeOvl n] =
        { w with ovls := (l.modify n fun v => if v.task && !(decide (0 < v.handles) || false) then { v with task := false } else v), cancelled := b' } := by
      show ∃ b', step _ _ = _
      unfold step
      rcases settle_cases (effect { w with ovls := l, cancelled := b } (.wakeOvl n)) with e | ⟨-, e⟩ <;> rw [e] <;>
        simp only [effect, hs]
      · exact ⟨b, rfl⟩
      · exact ⟨true, rfl⟩
    obtain ⟨b', e2⟩ := e2
    refine ⟨_, b', e2, by simp [hl], hs', ?_, ?_⟩
    · intro v hv
      rcases mem_modify hv with hv | ⟨y, hy, rfl⟩
      · exact h0 v hv
      · have := h0 y hy
        split <;> simp_all
    · intro i v hi hv
      rw [List.getElem?_modify] at hv
      cases hg : l[i]? with
      | none => rw [hg] at hv; cases hv
      | some y =>
        rw [hg] at hv
        have hy := h0 y (List.mem_of_getElem? hg)
        by_cases hin : n = i
        · subst hin
          simp only [hy, if_true, Option.map_eq_map, Option.map_some, Option.some.injEq] at hv
          subst hv
          cases hyt : y.task <;> simp [hyt]
        · simp only [hin, if_false, Option.map_eq_map, Option.map_some, Option.some.injEq] at hv
          subst hv
          exact ht i y (by omega) hg

/-- **C96, partial.** What holds: after a `shutdown`, or if the node was never started, one quiet round after the
application has dropped everything ends all tasks but those of DHT nodes, whatever happened before. -/
theorem C96_ends_partial (ops : List Op) (h0 : appRefs (run init ops) = 0)
    (hc : (run init ops).cancelled = true ∨ (run init ops).started = false) :
    let w := run (run init ops) (quietRound (run init ops))
    w.receiver = false ∧ w.sender = false ∧ w.packets = 0 ∧ ∀ v ∈ w.ovls, v.task = false := by
  have hidle := unstarted ops init (fun _ => ⟨rfl, rfl, rfl⟩)
  generalize run init ops = w0 at h0 hc hidle
  have e1 : ∃ b, step w0 (.poll false) = { w0 with receiver := false, cancelled := b } ∧ (w0.cancelled = true → b = true) := by
    have : effect w0 (.poll false) = { w0 with receiver := false } := by
      simp only [effect]
      cases hr : w0.receiver
      · cases w0; simp_all
      · rcases hc with hc | hc
        · simp [hc]
        · have := (hidle hc).1
          rw [hr] at this
          cases this
    unfold step
    rcases settle_cases (effect w0 (.poll false)) with e | ⟨-, e⟩ <;> rw [e, this]
    · exact ⟨w0.cancelled, rfl, fun h => h⟩
    · exact ⟨true, rfl, fun _ => rfl⟩
  obtain ⟨b1, e1, hb1⟩ := e1
  have e2 : ∃ b, step (step w0 (.poll false)) (.pollSender false) =
      { w0 with receiver := false, sender := false, cancelled := b } := by
    have : effect (step w0 (.poll false)) (.pollSender false) =
        { w0 with receiver := false, sender := false, cancelled := b1 } := by
      rw [e1]
      simp only [effect]
      cases hr : w0.sender
      · cases w0; simp_all
      · rcases hc with hc | hc
        · simp [hb1 hc]
        · have := (hidle hc).2.1
          rw [hr] at this
          cases this
    unfold step at this ⊢
    rcases settle_cases (effect (settle (effect w0 (.poll false))) (.pollSender false)) with e | ⟨-, e⟩ <;> rw [e, this]
    · exact ⟨b1, rfl⟩
    · exact ⟨true, rfl⟩
  obtain ⟨b2, e2⟩ := e2
  obtain ⟨b3, e3, -⟩ := run_handled w0.packets { w0 with receiver := false, sender := false, cancelled := b2 } (Nat.le_refl _)
  have hov : ∀ v ∈ w0.ovls, v.handles = 0 := by
    intro v hv
    by_contra hp
    have : 0 < appRefs w0 := (appRefs_pos w0).2 (.inr (.inr ⟨v, hv, by omega⟩))
    omega
  have hsub : subscribed { w0 with receiver := false, sender := false, packets := 0, cancelled := b3 } = false := by
    unfold subscribed
    split
    · rfl
    · have : appRefs { w0 with receiver := false, sender := false, packets := 0, cancelled := b3 } = 0 := h0
      simp [refs, ctx, this]
  obtain ⟨l, b4, e4, hl, -, -, ht⟩ := run_wake { w0 with receiver := false, sender := false, packets := 0, cancelled := b3 }
    hsub hov w0.ovls.length (Nat.le_refl _)
  have : run w0 (quietRound w0) =
      { w0 with receiver := false, sender := false, packets := 0, ovls := l, cancelled := b4 } := by
    unfold quietRound
    rw [run_append, run_append]
    have : run w0 [.poll false, .pollSender false] = { w0 with receiver := false, sender := false, cancelled := b2 } := e2
    rw [this, e3, e4]
  rw [this]
  refine ⟨rfl, rfl, rfl, ?_⟩
  intro v hv
  obtain ⟨i, hi, rfl⟩ := List.mem_iff_getElem.1 hv
  exact ht i _ (by simp only at hi hl; omega) (List.getElem?_eq_getElem hi)

/-- The hypotheses are met, after a shutdown while a packet is being handled. -/
example : (run (run init [.newOvl, .start, .poll true, .shutdown, .drop, .dropOvl 0])
    (quietRound (run init [.newOvl, .start, .poll true, .shutdown, .drop, .dropOvl 0]))).ovls = [⟨0, false⟩] ∧
    ∀ v ∈ (run (run init [.newOvl, .start, .poll true, .shutdown, .drop, .dropOvl 0])
      (quietRound (run init [.newOvl, .start, .poll true, .shutdown, .drop, .dropOvl 0]))).ovls, v.task = false :=
  ⟨by decide, (C96_ends_partial [.newOvl, .start, .poll true, .shutdown, .drop, .dropOvl 0] (by decide)
    (.inl (by decide))).2.2.2⟩

/-- A node is started once, and gets no subscribers afterwards. -/
theorem start_once (w : World) (h : w.started = true) :
    effect w .start = w ∧ effect w .newDht = w ∧ effect w .newOvl = w := by
  simp [effect, h]

theorem cancelled_step (w : World) (op : Op) (h : w.cancelled = true) : (step w op).cancelled = true := by
  have : (effect w op).cancelled = true := by
    cases op <;> simp only [effect] <;> (repeat' split) <;> simp_all
  unfold step settle
  split
  · rfl
  · exact this

theorem cancelled_run (ops : List Op) : ∀ w : World, w.cancelled = true → (run w ops).cancelled = true := by
  induction ops with
  | nil => intro w h; exact h
  | cons op ops ih => intro w h; exact ih _ (cancelled_step w op h)

/-- **C96**, the part that holds: a node that was shut down at some time, by whoever had a reference to it, ends its
receiver, its sender and the tasks of its overlays once the last reference of the application is gone. -/
theorem C96_shutdown_partial (ops more : List Op) (hr : 0 < appRefs (run init ops))
    (h0 : appRefs (run init (ops ++ .shutdown :: more)) = 0) :
    let w := run init (ops ++ .shutdown :: more)
    let w' := run w (quietRound w)
    w'.receiver = false ∧ w'.sender = false ∧ w'.packets = 0 ∧ ∀ v ∈ w'.ovls, v.task = false := by
  refine C96_ends_partial _ h0 (.inl ?_)
  rw [run_append]
  refine cancelled_run more _ ?_
  unfold step settle
  simp only [effect, if_pos hr]
  split <;> rfl

/-- A shutdown in the middle of the life of a node. -/
example : 0 < appRefs (run init [.newOvl, .start, .poll true]) ∧
    appRefs (run init ([.newOvl, .start, .poll true] ++ .shutdown :: [.poll true, .drop, .dropOvl 0])) = 0 ∧
    (run init ([.newOvl, .start, .poll true] ++ .shutdown :: [.poll true, .drop, .dropOvl 0])).receiver = true := by
  decide

end Verif.Lifecycle
