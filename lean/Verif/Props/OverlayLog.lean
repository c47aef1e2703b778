import Verif.Proofs.OverlayLog
import Verif.Props.RldpReceive

/-!
# C46: the log of broadcasts stays bounded
-/
namespace Verif.Overlay
open Verif.Rldp

variable {c : Crypto} {f : Fec}

/-- The remembered broadcasts whose time is over (their clean-up timer has ended). -/
def finished (s : State c f) : List Bytes :=
  s.owned.keys.filter fun k => decide (k ∈ s.counted ++ s.queue)

/-- A clean-up round is over: the loop is at its test, and the test fails. -/
def roundOver (e : Env) (s : State c f) : Prop := s.gc = .idle ∧ ¬ s.count > e.maxLog

/-- The broadcasts forgotten by a step. -/
def forgotten (s s' : State c f) : List Bytes := s.owned.keys.filter fun k => decide (k ∉ s'.owned.keys)

/-- The broadcasts forgotten in the course of a run, in order. -/
def allForgotten (e : Env) (s : State c f) : List Action → List Bytes
  | [] => []
  | a :: as => forgotten s (step c f e s a).1 ++ allForgotten e (step c f e s a).1 as

/-- The broadcast put in the queue of finished broadcasts by a step. -/
def pushed (s : State c f) : Action → List Bytes
  | .push i => (s.counted[i]?).toList
  | _ => []

/-- The broadcasts put in that queue in the course of a run, in order. -/
def allPushed (e : Env) (s : State c f) : List Action → List Bytes
  | [] => []
  | a :: as => pushed s a ++ allPushed e (step c f e s a).1 as

/-- The loop passes its `pop` and finds the queue empty although the counter said otherwise. -/
def emptyPop (s s' : State c f) : Nat := if s.gc = .pop ∧ s'.gc = .sub ∧ s.queue = [] then 1 else 0

/-- How often that happens in the course of a run. -/
def emptyPops (e : Env) (s : State c f) : List Action → Nat
  | [] => 0
  | a :: as => emptyPop s (step c f e s a).1 + emptyPops e (step c f e s a).1 as

/-- At no time more than `max_broadcast_log` tasks are between the increment of the counter and the
`push` (they are next to each other in the code, so there are at most as many as threads). -/
def FewCounted (e : Env) (s : State c f) : List Action → Prop
  | [] => True
  | a :: as => s.counted.length ≤ e.maxLog ∧ FewCounted e (step c f e s a).1 as

theorem finished_length {s : State c f} (h : TInv (view s)) :
    (finished s).length = s.counted.length + s.queue.length := by
  have hn : ((view s).tokens).Nodup := h.perm.nodup_iff.mpr h.nodup
  have h1 : (finished s).Perm ((view s).tokens.filter fun k => decide (k ∈ s.counted ++ s.queue)) :=
    (h.perm.filter _).symm
  rw [h1.length_eq]
  have h2 : (view s).tokens = (s.cleanups.map (·.1) ++ s.timers.map (·.1)) ++ (s.counted ++ s.queue) := by
    simp [View.tokens, view]
  rw [h2] at hn ⊢
  rw [List.filter_append]
  have hd := (List.nodup_append.mp hn).2.2
  rw [List.filter_eq_nil_iff.mpr, List.filter_eq_self.mpr]
  · simp
  · intro x hx; simpa using hx
  · intro x hx hc
    exact hd x hx x (by simpa using hc) rfl

/-- The counter against the queue. -/
structure CInv (e : Env) (v : View) (misses : Nat) : Prop where
  eq : v.count + misses = v.queue.length + v.counted.length + (if v.gc = .sub then 1 else 0)
  gt : v.gc ≠ .idle → v.count > e.maxLog

theorem eraseIdx_length {α : Type} {l : List α} {i : Nat} {a : α} (h : l[i]? = some a) :
    (l.eraseIdx i).length + 1 = l.length := (eraseIdx_perm h).length_eq

theorem CInv.eff {e : Env} {v v' : View} {m : Nat} (h : CInv e v m) (he : Eff e v v') :
    CInv e v' (m + (if v.gc = .pop ∧ v'.gc = .sub ∧ v.queue = [] then 1 else 0)) := by
  obtain ⟨h1, h2⟩ := h
  have hz : ∀ {g g' : GcPc} {q : List Bytes}, ¬ (g = .pop ∧ g' = .sub) →
      (if g = .pop ∧ g' = .sub ∧ q = [] then 1 else 0) = 0 := by
    intro g g' q hn
    rw [if_neg (fun hc => hn ⟨hc.1, hc.2.1⟩)]
  have hs : ∀ {g : GcPc}, ¬ (g = .pop ∧ g = .sub) := by
    rintro g ⟨rfl, hc⟩; cases hc
  cases he with
  | same t _ => exact ⟨by simpa [hz hs] using h1, h2⟩
  | create bid hb => exact ⟨by simpa [hz hs] using h1, h2⟩
  | createFec bid hb => exact ⟨by simpa [hz hs] using h1, h2⟩
  | cleanup i bid hb => exact ⟨by simpa [hz hs] using h1, h2⟩
  | expire i bid due hb hd =>
    refine ⟨?_, fun hg => ?_⟩
    · simp only [hz hs, List.length_append, List.length_cons, List.length_nil]
      omega
    · have := h2 hg; simp only; omega
  | push i bid hb =>
    refine ⟨?_, h2⟩
    have := eraseIdx_length hb
    simp only [hz hs, List.length_append, List.length_cons, List.length_nil]
    omega
  | check hg hc => exact ⟨by simpa [hg] using h1, fun _ => hc⟩
  | popNone hg hq =>
    refine ⟨?_, fun _ => h2 (by rw [hg]; decide)⟩
    simp only [hg, hq, List.length_nil, reduceCtorEq, if_false] at h1
    simp only [hg, hq, List.length_nil, and_self, if_true]
    omega
  | pop bid rest hg hq =>
    refine ⟨?_, fun _ => h2 (by rw [hg]; decide)⟩
    simp only [hg, hq, List.length_cons, reduceCtorEq, if_false] at h1
    simp only [hg, hq, reduceCtorEq, and_false, if_false, if_true]
    omega
  | sub hg =>
    refine ⟨?_, fun hc => absurd rfl hc⟩
    have := h2 (by rw [hg]; decide)
    simp only [hg, if_true] at h1
    simp only [hg, reduceCtorEq, false_and, if_false]
    omega

theorem cinv_run (e : Env) (as : List Action) : ∀ {s : State c f} {m : Nat}, CInv e (view s) m →
    CInv e (view (run c f e s as)) (m + emptyPops e s as) := by
  induction as with
  | nil => intro s m h; exact h
  | cons a as ih =>
    intro s m h
    have := ih (h.eff (step_eff e s a))
    simp only [run, emptyPops]
    rw [← Nat.add_assoc]
    exact this

theorem CInv.init (e : Env) : CInv e (view (State.init c f)) 0 :=
  ⟨rfl, fun hc => absurd rfl hc⟩

/-- C46 as stated, first part. -/
def C46_full : Prop := ∀ (c : Crypto) (f : Fec) (e : Env) (as : List Action),
  roundOver e (run c f e (State.init c f) as) →
  (finished (run c f e (State.init c f) as)).length ≤ e.maxLog

/-- The code increments the counter before it puts the broadcast in the queue. With `max_broadcast_log`
0 the loop can come between: it finds nothing to remove, takes the increment back, and the broadcast put
in the queue afterwards is not counted. -/
theorem C46_full_false : ¬ C46_full := by
  intro h
  have := h Crypto.toy Fec.toy ⟨.release, ⟨fun b => b, some⟩, 0, 0⟩
    [.own [1], .expire 0, .gcCheck, .gcPop, .gcSub, .push 0] ⟨by decide, by decide⟩
  revert this
  decide

/-- For every schedule: when a clean-up round is over, at most `max_broadcast_log` finished broadcasts
are remembered, plus one for each time the loop found the queue empty. -/
theorem C46_bound (e : Env) (as : List Action) (h : roundOver e (run c f e (State.init c f) as)) :
    (finished (run c f e (State.init c f) as)).length ≤
      e.maxLog + emptyPops e (State.init c f) as := by
  rw [finished_length (TInv.run e as TInv.init)]
  have h1 := (cinv_run e as (CInv.init (c := c) (f := f) e)).eq
  have hg : (view (run c f e (State.init c f) as)).gc = .idle := h.1
  rw [hg] at h1
  simp only [reduceCtorEq, if_false] at h1
  have h2 : (view (run c f e (State.init c f) as)).count ≤ e.maxLog := Nat.le_of_not_lt h.2
  simp only [view] at h1 h2
  omega

theorem emptyPops_zero (e : Env) (as : List Action) : ∀ {s : State c f}, CInv e (view s) 0 →
    FewCounted e s as → emptyPops e s as = 0 := by
  induction as with
  | nil => intro s _ _; rfl
  | cons a as ih =>
    intro s h hf
    have h0 : emptyPop s (step c f e s a).1 = 0 := by
      unfold emptyPop
      rw [if_neg]
      rintro ⟨hg, _, hq⟩
      have hg1 : (view s).gc = .pop := hg
      have h1 := h.eq
      have h2 := h.gt (by rw [hg1]; decide)
      have h3 := hf.1
      rw [hg1] at h1
      simp only [view, hq, List.length_nil] at h1 h2
      simp at h1
      omega
    have h1 := h.eff (step_eff e s a)
    simp only [emptyPops, h0, Nat.zero_add]
    refine ih ?_ hf.2
    have h2 : (if (view s).gc = .pop ∧ (view (step c f e s a).1).gc = .sub ∧ (view s).queue = []
      then 1 else 0) = 0 := h0
    rw [h2] at h1
    exact h1

/-- C46, first part, as far as it holds: as long as never more than `max_broadcast_log` tasks are
between the two statements of the clean-up task (with the default of 1000: always, unless there are more
than 1000 threads). -/
theorem C46_bounded_partial (e : Env) (as : List Action)
    (hf : FewCounted e (State.init c f) as) (h : roundOver e (run c f e (State.init c f) as)) :
    (finished (run c f e (State.init c f) as)).length ≤ e.maxLog := by
  have h1 := C46_bound e as h
  rw [emptyPops_zero e as (CInv.init e) hf] at h1
  exact h1

/-- Three own broadcasts, a log of one: after the round one is remembered, the youngest. -/
example : FewCounted ⟨.release, ⟨fun b => b, some⟩, 0, 1⟩ (State.init Crypto.toy Fec.toy)
      [.own [1], .own [2], .expire 0, .push 0, .gcCheck, .expire 0, .push 0, .gcCheck, .gcPop, .gcSub] ∧
    roundOver ⟨.release, ⟨fun b => b, some⟩, 0, 1⟩ (run Crypto.toy Fec.toy
      ⟨.release, ⟨fun b => b, some⟩, 0, 1⟩ (State.init Crypto.toy Fec.toy)
      [.own [1], .own [2], .expire 0, .push 0, .gcCheck, .expire 0, .push 0, .gcCheck, .gcPop, .gcSub]) ∧
    finished (run Crypto.toy Fec.toy
      ⟨.release, ⟨fun b => b, some⟩, 0, 1⟩ (State.init Crypto.toy Fec.toy)
      [.own [1], .own [2], .expire 0, .push 0, .gcCheck, .expire 0, .push 0, .gcCheck, .gcPop, .gcSub])
      = [[2]] := by
  refine ⟨?_, ⟨by decide, by decide⟩, by decide⟩
  simp only [FewCounted]
  decide

theorem mem_forgotten {s s' : State c f} {x : Bytes} :
    x ∈ forgotten s s' ↔ x ∈ s.owned.keys ∧ x ∉ s'.owned.keys := by
  simp [forgotten]

/-- What a step forgets, from the view: nothing, or the head of the queue in the loop. -/
theorem forgotten_eff {e : Env} {v v' : View} (h : TInv v) (he : Eff e v v') :
    (v.keys.filter (fun k => decide (k ∉ v'.keys)) = [] ∧
      (v'.queue = v.queue ∨ ∃ (i : Nat) (bid : Bytes), v.counted[i]? = some bid ∧ v'.queue = v.queue ++ [bid])) ∨
    (∃ bid, v.keys.filter (fun k => decide (k ∉ v'.keys)) = [bid] ∧ v.queue = bid :: v'.queue ∧
      v.gc = .pop ∧ v'.gc = .sub) := by
  have hnil : v'.keys = v.keys → v.keys.filter (fun k => decide (k ∉ v'.keys)) = [] := by
    intro hk
    rw [hk, List.filter_eq_nil_iff]
    intro x hx; simpa using hx
  have hcons : ∀ bid, v'.keys = bid :: v.keys → v.keys.filter (fun k => decide (k ∉ v'.keys)) = [] := by
    intro bid hk
    rw [hk, List.filter_eq_nil_iff]
    intro x hx; simp [hx]
  cases he with
  | same t _ => exact .inl ⟨hnil rfl, .inl rfl⟩
  | create bid hb => exact .inl ⟨hcons bid rfl, .inl rfl⟩
  | createFec bid hb => exact .inl ⟨hcons bid rfl, .inl rfl⟩
  | cleanup i bid hb => exact .inl ⟨hnil rfl, .inl rfl⟩
  | expire i bid due hb hd => exact .inl ⟨hnil rfl, .inl rfl⟩
  | push i bid hb => exact .inl ⟨hnil rfl, .inr ⟨i, bid, hb, rfl⟩⟩
  | check hg hc => exact .inl ⟨hnil rfl, .inl rfl⟩
  | popNone hg hq => exact .inl ⟨hnil rfl, .inl rfl⟩
  | pop bid rest hg hq =>
    refine .inr ⟨bid, ?_, hq, hg, rfl⟩
    have hmem : bid ∈ v.keys := by
      refine h.perm.subset ?_
      simp [View.tokens, hq]
    have h1 : v.keys.filter (fun k => decide (k ∉ v.keys.filter (fun x => decide (x ≠ bid))))
        = v.keys.filter (fun k => k == bid) := by
      apply List.filter_congr
      intro x hx
      by_cases hxb : x = bid
      · simp [hxb]
      · simp [hxb, hx]
    have h2 : (v.keys.filter (fun k => k == bid)) = [bid] := by
      have hc := List.nodup_iff_count_le_one.mp h.nodup bid
      have hc2 : 0 < v.keys.count bid := List.count_pos_iff.mpr hmem
      rw [List.filter_beq]
      have : v.keys.count bid = 1 := by omega
      rw [this]; rfl
    exact h1.trans h2
  | sub hg => exact .inl ⟨hnil rfl, .inl rfl⟩

/-- C46, third part: for every schedule, when a step makes the node forget a broadcast, this is a single
one, it is finished, and more than `max_broadcast_log` finished ones were remembered. -/
theorem C46_not_early (e : Env) (as : List Action) (a : Action) (x : Bytes)
    (hx : x ∈ forgotten (run c f e (State.init c f) as) (step c f e (run c f e (State.init c f) as) a).1) :
    forgotten (run c f e (State.init c f) as) (step c f e (run c f e (State.init c f) as) a).1 = [x] ∧
    x ∈ finished (run c f e (State.init c f) as) ∧
    e.maxLog < (finished (run c f e (State.init c f) as)).length := by
  have hT := TInv.run e as (TInv.init (c := c) (f := f))
  have hC := cinv_run e as (CInv.init (c := c) (f := f) e)
  rw [finished_length hT]
  generalize run c f e (State.init c f) as = s at *
  rcases forgotten_eff hT (step_eff e s a) with ⟨h1, _⟩ | ⟨bid, h1, h2, h3, _⟩
  · have : forgotten s (step c f e s a).1 = [] := h1
    rw [this] at hx
    exact absurd hx List.not_mem_nil
  · have h1' : forgotten s (step c f e s a).1 = [bid] := h1
    rw [h1'] at hx ⊢
    have hxb : x = bid := by simpa using hx
    subst hxb
    have hk : x ∈ s.owned.keys := (mem_forgotten.mp (by rw [h1']; simp)).1
    have hq : s.queue = x :: (step c f e s a).1.queue := h2
    refine ⟨rfl, ?_, ?_⟩
    · simp [finished, hk, hq]
    · have e1 := hC.eq
      have e2 := hC.gt (by rw [h3]; decide)
      rw [h3] at e1
      simp only [view] at e1 e2
      simp at e1
      omega

theorem queue_nonpush (e : Env) (s : State c f) (a : Action) (h : ∀ i, a ≠ .push i) :
    (step c f e s a).1.queue.length ≤ s.queue.length := by
  cases a with
  | tick ms => exact Nat.le_refl _
  | ordinary now b =>
    simp only [step, receiveOrdinary]
    split <;> [exact Nat.le_refl _; exact Nat.le_refl _; (split <;> exact Nat.le_refl _)]
  | fec now b =>
    simp only [step, receiveFec]
    split
    · exact Nat.le_refl _
    · exact Nat.le_refl _
    · split
      · exact Nat.le_refl _
      · split
        · exact Nat.le_refl _
        · next pub _ _ =>
          have hq : (if (s.owned.get b.dataHash).isNone = true then
                newTransfer c f e s b (Node.shortId c pub) else s).queue = s.queue := by
            split <;> rfl
          generalize (if (s.owned.get b.dataHash).isNone = true then
                newTransfer c f e s b (Node.shortId c pub) else s) = s' at hq ⊢
          have hf : ∀ i t source, (feed c f s' i t pub source b).1.queue = s'.queue := fun i t source =>
            congrArg View.queue (feed_view s' i t pub source b)
          split
          · split
            · rw [hf, hq]; exact Nat.le_refl _
            · rw [hq]; exact Nat.le_refl _
          · rw [hq]; exact Nat.le_refl _
  | own bid => simp only [step, createOwn]; split <;> exact Nat.le_refl _
  | task i =>
    simp only [step, taskStep]
    split
    · exact Nat.le_refl _
    · split
      · exact Nat.le_refl _
      · split
        · split <;> exact Nat.le_refl _
        · split <;> exact Nat.le_refl _
  | mark i =>
    simp only [step, markStep]
    split
    · exact Nat.le_refl _
    · split
      · exact Nat.le_refl _
      · split
        · split <;> exact Nat.le_refl _
        · exact Nat.le_refl _
  | cleanup i =>
    simp only [step, cleanupStep]
    split
    · exact Nat.le_refl _
    · split
      · exact Nat.le_refl _
      · split <;> exact Nat.le_refl _
  | expire i =>
    simp only [step]
    split
    · exact Nat.le_refl _
    · split <;> exact Nat.le_refl _
  | push i => exact absurd rfl (h i)
  | gcCheck => simp only [step]; split <;> exact Nat.le_refl _
  | gcPop =>
    simp only [step]
    split
    · split
      · exact Nat.le_refl _
      · next hq => rw [hq]; simp
    · exact Nat.le_refl _
  | gcSub => simp only [step]; split <;> exact Nat.le_refl _

/-- C46, second part: for every schedule, broadcasts are forgotten in the order in which they were put
in the queue: those forgotten, followed by those still in the queue, are all those ever put there. -/
theorem C46_oldest_first (e : Env) (as : List Action) :
    allForgotten e (State.init c f) as ++ (run c f e (State.init c f) as).queue =
      allPushed e (State.init c f) as := by
  suffices h : ∀ (as : List Action) (s : State c f), TInv (view s) →
      allForgotten e s as ++ (run c f e s as).queue = s.queue ++ allPushed e s as by
    simpa [State.init] using h as (State.init c f) TInv.init
  intro as
  induction as with
  | nil => intro s _; simp [allForgotten, allPushed, run]
  | cons a as ih =>
    intro s hT
    have h1 := ih (step c f e s a).1 (hT.eff (step_eff e s a))
    simp only [allForgotten, run, List.append_assoc]
    rw [h1]
    have hp : ∀ q : List Bytes, (step c f e s a).1.queue = s.queue ++ q →
        forgotten s (step c f e s a).1 = [] →
        q = pushed s a →
        forgotten s (step c f e s a).1 ++ ((step c f e s a).1.queue ++ allPushed e (step c f e s a).1 as)
          = s.queue ++ allPushed e s (a :: as) := by
      intro q hq hf ha
      rw [hf, hq, List.nil_append, List.append_assoc]
      simp only [allPushed]
      rw [← ha]
    by_cases hpush : ∃ i, a = .push i
    · obtain ⟨i, rfl⟩ := hpush
      cases hc : s.counted[i]? with
      | none =>
        apply hp [] <;> simp [step, hc, forgotten, pushed]
      | some bid =>
        apply hp [bid] <;> simp [step, hc, forgotten, pushed]
    · have ha : pushed s a = [] := by
        cases a <;> first | rfl | exact absurd ⟨_, rfl⟩ hpush
      rcases forgotten_eff hT (step_eff e s a) with ⟨h2, h3⟩ | ⟨bid, h2, h3, _, _⟩
      · rcases h3 with h3 | ⟨i, bid, _, h3⟩
        · refine hp [] ?_ h2 ha.symm
          rw [List.append_nil]; exact h3
        · exfalso
          have hlen : (step c f e s a).1.queue.length = s.queue.length + 1 := by
            have : (view (step c f e s a).1).queue = s.queue ++ [bid] := h3
            simp only [view] at this
            rw [this]; simp
          have := queue_nonpush e s a (fun i hi => hpush ⟨i, hi⟩)
          omega
      · have h2' : forgotten s (step c f e s a).1 = [bid] := h2
        have h3' : s.queue = bid :: (step c f e s a).1.queue := h3
        rw [h2', h3']
        simp only [allPushed, ha, List.nil_append, List.cons_append]

-- C46_bound, C46_not_early
example := C46_bound (c := Crypto.toy) (f := Fec.toy) ⟨.release, ⟨fun b => b, some⟩, 0, 1⟩
  [.own [1], .own [2], .expire 0, .push 0, .gcCheck, .expire 0, .push 0, .gcCheck, .gcPop, .gcSub]
  ⟨by decide, by decide⟩
example := C46_not_early (c := Crypto.toy) (f := Fec.toy) ⟨.release, ⟨fun b => b, some⟩, 0, 1⟩
  [.own [1], .own [2], .expire 0, .push 0, .gcCheck, .expire 0, .push 0, .gcCheck] .gcPop [1] (by decide)

end Verif.Overlay
