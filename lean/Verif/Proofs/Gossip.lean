import Verif.Spec.Gossip
import Verif.Props.OverlayOnce
import Verif.Props.BroadcastSend

/-!
# Lemmas for C113
-/
namespace Verif.Gossip
open Verif.Overlay Verif.Rldp

variable {c : Crypto} {f : Fec} {o : Bytes → Opts} {ov : Bytes}

/-! ### One member -/

theorem events_cons (w : World c f) (a : Act c) (as : List (Act c)) :
    events o ov w (a :: as) = ((event c f ov w a).map fun p =>
      (p.1, p.2, (Overlay.step c f (o p.1).env (w.node p.1) p.2).2)).toList ++
        events o ov (step c f o ov w a) as := rfl

theorem eventsOf_cons (n : Bytes) (w : World c f) (a : Act c) (as : List (Act c)) :
    eventsOf o ov n w (a :: as) = (match event c f ov w a with
      | some (m, x) => if m = n then [(x, (Overlay.step c f (o m).env (w.node m) x).2)] else []
      | none => []) ++ eventsOf o ov n (step c f o ov w a) as := by
  unfold eventsOf
  rw [events_cons, List.filterMap_append]
  congr 1
  cases event c f ov w a with
  | none => rfl
  | some p =>
    obtain ⟨m, x⟩ := p
    by_cases h : m = n <;> simp [h]

theorem node_step (w : World c f) (a : Act c) (n : Bytes) :
    (step c f o ov w a).node n = match event c f ov w a with
      | some (m, x) => if m = n then (Overlay.step c f (o n).env (w.node n) x).1 else w.node n
      | none => w.node n := by
  unfold step
  cases event c f ov w a with
  | none => rfl
  | some p =>
    obtain ⟨m, x⟩ := p
    by_cases h : m = n
    · subst h; simp [World.update]
    · have h' : ¬ n = m := fun e => h e.symm
      simp [World.update, h, h']

theorem net_step (w : World c f) (a : Act c) :
    (step c f o ov w a).net = w.net ++ letters c f o ov w a := rfl

/-- What a member does in the world is a run of the member alone. -/
theorem eventsOf_trace (n : Bytes) (as : List (Act c)) : ∀ w : World c f,
    eventsOf o ov n w as = trace c f (o n).env (w.node n) ((eventsOf o ov n w as).map (·.1)) ∧
    (run c f o ov w as).node n = Overlay.run c f (o n).env (w.node n) ((eventsOf o ov n w as).map (·.1)) := by
  induction as with
  | nil => intro w; exact ⟨rfl, rfl⟩
  | cons a as ih =>
    intro w
    obtain ⟨h1, h2⟩ := ih (step c f o ov w a)
    rw [eventsOf_cons]
    have hn := node_step (o := o) (ov := ov) w a n
    have hr : run c f o ov w (a :: as) = run c f o ov (step c f o ov w a) as := rfl
    rw [hr]
    cases he : event c f ov w a with
    | none =>
      rw [he] at hn
      simp only at hn
      rw [hn] at h1 h2
      simp only [List.nil_append]
      exact ⟨h1, h2⟩
    | some p =>
      obtain ⟨m, x⟩ := p
      rw [he] at hn
      by_cases hm : m = n
      · subst hm
        simp only [if_true] at hn
        rw [hn] at h1 h2
        simp only [if_true, List.cons_append, List.nil_append, List.map_cons, trace, Overlay.run]
        exact ⟨by rw [← h1], h2⟩
      · simp only [hm, if_false] at hn
        rw [hn] at h1 h2
        simp only [hm, if_false, List.nil_append]
        exact ⟨h1, h2⟩

theorem deliveredIds_trace (e : Env) (as : List Action) : ∀ s : State c f,
    deliveredIds e s as = (trace c f e s as).filterMap fun p => deliveredId c p.1 p.2 := by
  induction as with
  | nil => intro s; rfl
  | cons a as ih =>
    intro s
    simp only [deliveredIds, trace, List.filterMap_cons]
    rw [ih]
    cases deliveredId c a (Overlay.step c f e s a).2 <;> simp

/-! ### Traffic -/

/-- The broadcast is passed on. -/
def isPass (b : Ordinary) : Action → Out → Bool
  | .ordinary _ b', r => decide (b' = b) && r.forwarded
  | _, _ => false

/-- Times a member passes on an ordinary broadcast. -/
def passes (o : Bytes → Opts) (ov : Bytes) (b : Ordinary) (n : Bytes) (w : World c f) (as : List (Act c)) : Nat :=
  (eventsOf o ov n w as).countP fun p => isPass b p.1 p.2

theorem forwarded_ordinary {e : Env} {s : State c f} {now : Nat} {b : Ordinary}
    (h : (Overlay.step c f e s (.ordinary now b)).2.forwarded = true) :
    ∃ d, (Overlay.step c f e s (.ordinary now b)).2.delivered = some d := by
  simp only [Overlay.step, receiveOrdinary] at h ⊢
  split at h
  · cases h
  · cases h
  · split at h
    · cases h
    · exact ⟨_, rfl⟩

theorem passes_le_trace (e : Env) (b : Ordinary) (bid : Bytes)
    (hb : ∀ now x d s, checkOrdinary c e now b = .ok x d s → x = bid) (as : List Action) : ∀ s : State c f,
    ((trace c f e s as).countP fun p => isPass b p.1 p.2) ≤ (deliveredIds e s as).count bid := by
  induction as with
  | nil => intro s; exact Nat.le_refl _
  | cons a as ih =>
    intro s
    have h := ih (Overlay.step c f e s a).1
    simp only [trace, List.countP_cons, deliveredIds, List.count_append]
    suffices hk : (if isPass b a (Overlay.step c f e s a).2 = true then 1 else 0) ≤
        (deliveredId c a (Overlay.step c f e s a).2).toList.count bid by
      omega
    split
    · rename_i ht
      cases a with
      | ordinary now b' =>
        simp only [isPass, Bool.and_eq_true, decide_eq_true_eq] at ht
        obtain ⟨rfl, hf⟩ := ht
        obtain ⟨d, hd⟩ := forwarded_ordinary hf
        obtain ⟨x, h1, _⟩ := delivered_ordinary hd
        obtain ⟨_, _, _, h4⟩ := check_ok h1
        have := hb _ _ _ _ h1
        simp only [deliveredId, hd, Option.map_some, Option.toList_some]
        rw [← h4, this]
        simp
      | _ => cases ht
    · exact Nat.zero_le _

theorem passes_le (b : Ordinary) (bid n : Bytes)
    (hb : ∀ now x d s, checkOrdinary c (o n).env now b = .ok x d s → x = bid) (w : World c f)
    (as : List (Act c)) :
    passes o ov b n w as ≤
      (deliveredIds (o n).env (w.node n) ((eventsOf o ov n w as).map (·.1))).count bid := by
  have h := passes_le_trace (f := f) (o n).env b bid hb ((eventsOf o ov n w as).map (·.1)) (w.node n)
  unfold passes
  rw [← (eventsOf_trace n as w).1] at h
  exact h

theorem sum_le {α : Type} (S : List α) (g h : α → Nat) (hl : ∀ x ∈ S, g x ≤ h x) :
    (S.map g).sum ≤ (S.map h).sum := by
  induction S with
  | nil => exact Nat.le_refl _
  | cons x S ih =>
    have h1 := hl x (List.mem_cons_self ..)
    have h2 := ih (fun y hy => hl y (List.mem_cons_of_mem _ hy))
    simp only [List.map_cons, List.sum_cons]
    omega

theorem sum_add {α : Type} (S : List α) (g h : α → Nat) :
    (S.map fun x => g x + h x).sum = (S.map g).sum + (S.map h).sum := by
  induction S with
  | nil => rfl
  | cons x S ih => simp only [List.map_cons, List.sum_cons, ih]; omega

theorem le_sum {α : Type} {S : List α} (g : α → Nat) {x : α} (h : x ∈ S) : g x ≤ (S.map g).sum := by
  induction S with
  | nil => cases h
  | cons y S ih =>
    simp only [List.map_cons, List.sum_cons]
    rcases List.mem_cons.mp h with rfl | h
    · omega
    · have := ih h; omega

theorem copies_step (msg : Bytes) (w : World c f) (a : Act c) :
    copies msg (step c f o ov w a) =
      copies msg w + (letters c f o ov w a).countP fun m => decide (m.msg = msg) := by
  unfold copies
  rw [net_step, List.countP_append]

theorem net_mono (as : List (Act c)) : ∀ (w : World c f) (m : Letter), m ∈ w.net → m ∈ (run c f o ov w as).net := by
  induction as with
  | nil => intro w m h; exact h
  | cons a as ih => intro w m h; exact ih _ m (by rw [net_step]; exact List.mem_append_left _ h)

theorem onwardTo_length (p : Opts) (chosen : List Bytes) (src : Bytes) (now : Nat) (b : Ordinary) :
    (onwardTo p chosen src (.ordinary now b)).length ≤ p.onward := by
  simp only [onwardTo, targets, PeersSet.getRandomPeers, List.length_take]
  exact Nat.min_le_left _ _

theorem passes_cons (b : Ordinary) (n : Bytes) (w : World c f) (a : Act c) (as : List (Act c)) :
    passes o ov b n w (a :: as) = (match event c f ov w a with
      | some (m, .ordinary now b') => if m = n ∧ b' = b ∧
          (Overlay.step c f (o m).env (w.node m) (.ordinary now b')).2.forwarded = true then 1 else 0
      | _ => 0) + passes o ov b n (step c f o ov w a) as := by
  unfold passes
  rw [eventsOf_cons, List.countP_append]
  congr 1
  cases event c f ov w a with
  | none => rfl
  | some p =>
    obtain ⟨m, x⟩ := p
    by_cases h : m = n
    · simp only [h, if_true, List.countP_cons, List.countP_nil]
      cases x <;> simp [isPass]
    · simp only [h, if_false, List.countP_nil]
      cases x <;> simp [h]

theorem copies_le (b : Ordinary) (msg : Bytes) (hr : Overlay.readMessage msg = some (ov, .ordinary b))
    (S : List Bytes) (as : List (Act c)) : ∀ w : World c f,
    (∀ m ∈ (run c f o ov w as).net, m.msg = msg → m.dst ∈ S) →
    copies msg (run c f o ov w as) ≤ copies msg w + started o ov msg w as +
      (S.map fun n => (o n).onward * passes o ov b n w as).sum := by
  induction as with
  | nil => intro w _; simp only [run]; omega
  | cons a as ih =>
    intro w hS
    have h := ih (step c f o ov w a) hS
    have hc := copies_step (o := o) (ov := ov) msg w a
    have hr' : run c f o ov w (a :: as) = run c f o ov (step c f o ov w a) as := rfl
    rw [hr']
    simp only [passes_cons, Nat.mul_add, sum_add, started]
    suffices hk : (letters c f o ov w a).countP (fun m => decide (m.msg = msg)) ≤
        (if isDelivery a then 0 else (letters c f o ov w a).countP fun m => decide (m.msg = msg)) +
        (S.map fun n => (o n).onward * (match event c f ov w a with
          | some (m, .ordinary now b') => if m = n ∧ b' = b ∧
              (Overlay.step c f (o m).env (w.node m) (.ordinary now b')).2.forwarded = true then 1 else 0
          | _ => 0)).sum by
      omega
    cases a with
    | tell n now sec data ts => exact Nat.le_add_right _ _
    | post m => exact Nat.le_add_right _ _
    | inner n x => exact Nat.le_add_right _ _
    | deliver k now chosen =>
      simp only [isDelivery, if_true, Nat.zero_add]
      by_cases h0 : (letters c f o ov w (.deliver k now chosen)).countP (fun m => decide (m.msg = msg)) = 0
      · rw [h0]; exact Nat.zero_le _
      · obtain ⟨m', hm', hmm⟩ := List.countP_pos_iff.mp (Nat.pos_of_ne_zero h0)
        have hlen := List.countP_le_length (p := fun m : Letter => decide (m.msg = msg))
          (l := letters c f o ov w (.deliver k now chosen))
        simp only [decide_eq_true_eq] at hmm
        simp only [event]
        simp only [letters] at hm' hlen ⊢
        cases hk : w.net[k]? with
        | none => rw [hk] at hm'; exact absurd hm' List.not_mem_nil
        | some m =>
          rw [hk] at hm' hlen
          simp only [Option.bind_some] at hm' hlen ⊢
          cases hre : reaction ov m now with
          | none => rw [hre] at hm'; exact absurd hm' List.not_mem_nil
          | some p =>
            obtain ⟨n, x⟩ := p
            rw [hre] at hm' hlen
            simp only at hm' hlen ⊢
            by_cases hf : (Overlay.step c f (o n).env (w.node n) x).2.forwarded = true
            · rw [if_pos hf] at hm' hlen ⊢
              obtain ⟨t, _, rfl⟩ := List.mem_map.mp hm'
              simp only at hmm
              unfold reaction at hre
              rw [hmm, hr] at hre
              simp only [if_true, Option.some.injEq, Prod.mk.injEq] at hre
              obtain ⟨rfl, rfl⟩ := hre
              have hmem : m.dst ∈ S := hS m (net_mono (.deliver k now chosen :: as) w m
                (List.mem_of_getElem? hk)) hmm
              have h1 := le_sum (fun n' => (o n').onward * (if m.dst = n' ∧ b = b ∧
                (Overlay.step c f (o m.dst).env (w.node m.dst) (.ordinary now b)).2.forwarded = true
                then 1 else 0)) hmem
              simp only [hf, and_self, and_true, if_true, Nat.mul_one] at h1
              rw [List.length_map] at hlen
              have h2 := onwardTo_length (o m.dst) chosen m.src now b
              simp only [true_and]
              refine Nat.le_trans hlen (Nat.le_trans h2 (Nat.le_trans h1 (Nat.le_of_eq ?_)))
              simp only [hf, and_true]
            · rw [if_neg hf] at hm'
              exact absurd hm' List.not_mem_nil

/-! ### Reaching everybody -/

/-- How a broadcast gets into the table. -/
theorem new_key {e : Env} {s : State c f} {a : Action} {bid : Bytes} (h0 : bid ∉ s.owned.keys)
    (h1 : bid ∈ (Overlay.step c f e s a).1.owned.keys) :
    (∃ now b data source, a = .ordinary now b ∧ checkOrdinary c e now b = .ok bid data source) ∨
    (∃ now b, a = .fec now b ∧ b.dataHash = bid) ∨ a = .own bid := by
  have put : ∀ {k : Bytes} {x : Owned}, bid ∈ (s.owned.put k x).keys → bid = k := by
    intro k x h
    by_contra hne
    have h2 := mt (AMap.get_eq_none_iff (m := s.owned.put k x) (k := bid)).mp (fun hx => hx h)
    rw [AMap.get_put_ne _ _ hne] at h2
    exact h2 (AMap.get_eq_none_iff.mpr h0)
  cases a with
  | ordinary now b =>
    refine .inl ⟨now, b, ?_⟩
    simp only [Overlay.step, receiveOrdinary] at h1
    cases hc : checkOrdinary c e now b with
    | outdated => rw [hc] at h1; exact absurd h1 h0
    | failed => rw [hc] at h1; exact absurd h1 h0
    | ok x data source =>
      rw [hc] at h1
      simp only at h1
      cases hx : s.owned.get x with
      | some y => rw [hx] at h1; exact absurd h1 h0
      | none =>
        rw [hx] at h1
        exact ⟨data, source, rfl, by rw [put h1]⟩
  | fec now b =>
    refine .inr (.inl ⟨now, b, rfl, ?_⟩)
    simp only [Overlay.step, receiveFec] at h1
    split at h1
    · exact absurd h1 h0
    · exact absurd h1 h0
    · split at h1
      · exact absurd h1 h0
      · rename_i pub _
        split at h1
        · exact absurd h1 h0
        · obtain ⟨s', hs'⟩ : ∃ s', s' = (if (s.owned.get b.dataHash).isNone = true then
                newTransfer c f e s b (Node.shortId c pub) else s) := ⟨_, rfl⟩
          rw [← hs'] at h1
          have hk : bid ∈ s'.owned.keys := by
            split at h1
            · split at h1
              · rw [feed_delivered] at h1; exact h1
              · exact h1
            · exact h1
          rw [hs'] at hk
          split at hk
          · exact (put hk).symm
          · exact absurd hk h0
  | own x =>
    refine .inr (.inr ?_)
    simp only [Overlay.step, createOwn] at h1
    cases hx : s.owned.get x with
    | some y => rw [hx] at h1; exact absurd h1 h0
    | none => rw [hx] at h1; rw [put h1]
  | gcPop =>
    exfalso
    simp only [Overlay.step] at h1
    split at h1
    · split at h1
      · exact h0 h1
      · simp only [keys_erase] at h1
        exact h0 (List.mem_filter.mp h1).1
    · exact h0 h1
  | tick ms => exact absurd h1 h0
  | task i =>
    exfalso
    simp only [Overlay.step, taskStep] at h1
    repeat' split at h1
    all_goals exact h0 h1
  | mark i =>
    exfalso
    simp only [Overlay.step, markStep] at h1
    repeat' split at h1
    all_goals exact h0 h1
  | cleanup i =>
    exfalso
    simp only [Overlay.step, cleanupStep] at h1
    repeat' split at h1
    all_goals exact h0 h1
  | expire i =>
    exfalso
    simp only [Overlay.step] at h1
    repeat' split at h1
    all_goals exact h0 h1
  | push i =>
    exfalso
    simp only [Overlay.step] at h1
    repeat' split at h1
    all_goals exact h0 h1
  | gcCheck =>
    exfalso
    simp only [Overlay.step] at h1
    repeat' split at h1
    all_goals exact h0 h1
  | gcSub =>
    exfalso
    simp only [Overlay.step] at h1
    repeat' split at h1
    all_goals exact h0 h1

theorem eff_clock {e : Env} {v v' : View} (h : Eff e v v') : v.clock ≤ v'.clock := by
  cases h <;> first | exact Nat.le_refl _ | assumption

theorem clock_step (w : World c f) (a : Act c) (n : Bytes) :
    (w.node n).clock ≤ ((step c f o ov w a).node n).clock := by
  rw [node_step]
  split
  · split
    · exact eff_clock (step_eff _ _ _)
    · exact Nat.le_refl _
  · exact Nat.le_refl _

theorem clock_run (as : List (Act c)) : ∀ (w : World c f) (n : Bytes),
    (w.node n).clock ≤ ((run c f o ov w as).node n).clock := by
  induction as with
  | nil => intro w n; exact Nat.le_refl _
  | cons a as ih => intro w n; exact Nat.le_trans (clock_step w a n) (ih _ n)

/-- A broadcast and how it is read. -/
structure Spread (c : Crypto) (f : Fec) where
  o : Bytes → Opts
  ov : Bytes
  bid : Bytes
  msg : Bytes
  b : Ordinary
  d : Delivery
  /-- from when on a member may forget -/
  t : Bytes → Nat
  nb : Bytes → List Bytes
  hr : Overlay.readMessage msg = some (ov, .ordinary b)
  /-- in time it is accepted, otherwise ignored -/
  hok : ∀ n now, now ≤ b.date + (o n).env.timeout →
    checkOrdinary c (o n).env now b = .ok bid d.data d.source
  hold : ∀ n now, ¬ now ≤ b.date + (o n).env.timeout → checkOrdinary c (o n).env now b = .outdated
  hone : d.packets = 1

/-- The members in `H` have got the broadcast. -/
structure Spread.J (x : Spread c f) (H : List Bytes) (w : World c f) : Prop where
  inv : ∀ n, TInv (view (w.node n))
  clk : ∀ n, x.t n ≤ (w.node n).clock + 1000 * (x.o n).env.timeout
  kept : ∀ n ∈ H, Kept x.bid (x.t n) (view (w.node n))
  new : ∀ n, n ∉ H → x.bid ∉ (w.node n).owned.keys
  src : ∀ m ∈ w.net, m.msg = x.msg → m.src ∈ H
  pass : ∀ n ∈ H, ∀ y ∈ x.nb n, y ∈ H ∨ ⟨n, y, x.msg⟩ ∈ w.net
  nodup : H.Nodup

/-- What is asked of a step. -/
structure Spread.Ok (x : Spread c f) (w : World c f) (a : Act c) : Prop where
  lt : ∀ n, ((step c f x.o x.ov w a).node n).clock < x.t n
  clean : ∀ m ∈ w.net, m.msg ≠ x.msg → Unrelated c x.bid m.msg
  tell : ∀ n now sec data ts, a = .tell n now sec data ts → idOf c data now ≠ x.bid
  started : isDelivery a = false → ∀ m ∈ letters c f x.o x.ov w a, m.msg ≠ x.msg
  draw : ∀ k now chosen m, a = .deliver k now chosen → w.net[k]? = some m → m.msg = x.msg →
    ∀ y ∈ x.nb m.dst, y ≠ m.src → y ∈ targets chosen (x.o m.dst).onward (some m.src)

/-- A step in which no member gets the broadcast. -/
theorem Spread.J.frame {x : Spread c f} {H : List Bytes} {w : World c f} (h : x.J H w) {a : Act c} (hok : x.Ok w a)
    (hnew : ∀ n y, event c f x.ov w a = some (n, y) → n ∉ H →
      x.bid ∉ (Overlay.step c f (x.o n).env (w.node n) y).1.owned.keys)
    (hl : ∀ m ∈ letters c f x.o x.ov w a, m.msg ≠ x.msg) : x.J H (step c f x.o x.ov w a) := by
  have heff : ∀ n, Eff (x.o n).env (view (w.node n)) (view ((step c f x.o x.ov w a).node n)) := by
    intro n
    rw [node_step]
    split
    · split
      · exact step_eff _ _ _
      · exact Eff.refl _ _
    · exact Eff.refl _ _
  refine ⟨fun n => (h.inv n).eff (heff n), ?_, ?_, ?_, ?_, ?_, h.nodup⟩
  · intro n
    have := clock_step (o := x.o) (ov := x.ov) w a n
    have := h.clk n
    omega
  · intro n hn
    exact Kept.eff (fun _ => h.kept n hn) (heff n) (hok.lt n)
  · intro n hn
    rw [node_step]
    split
    · rename_i m y he
      split
      · rename_i hm
        subst hm
        exact hnew m y he hn
      · exact h.new n hn
    · exact h.new n hn
  · intro m hm hmm
    rw [net_step] at hm
    rcases List.mem_append.mp hm with hm | hm
    · exact h.src m hm hmm
    · exact absurd hmm (hl m hm)
  · intro n hn y hy
    rcases h.pass n hn y hy with hp | hp
    · exact .inl hp
    · exact .inr (by rw [net_step]; exact List.mem_append_left _ hp)

/-- What `given` gets from a step. -/
def givenStep (x : Spread c f) (w : World c f) (a : Act c) (n : Bytes) : List Delivery :=
  match event c f x.ov w a with
  | some (m, .ordinary now b') =>
    if m = n ∧ b' = x.b then (Overlay.step c f (x.o m).env (w.node m) (.ordinary now b')).2.delivered.toList else []
  | _ => []

theorem given_cons (x : Spread c f) (w : World c f) (a : Act c) (as : List (Act c)) (n : Bytes) :
    given x.o x.ov x.b n w (a :: as) = givenStep x w a n ++ given x.o x.ov x.b n (step c f x.o x.ov w a) as := by
  unfold given givenStep
  rw [eventsOf_cons, List.filterMap_append]
  congr 1
  cases event c f x.ov w a with
  | none => rfl
  | some p =>
    obtain ⟨m, y⟩ := p
    by_cases h : m = n
    · subst h
      cases y <;> simp
      rename_i now b'
      by_cases hb : b' = x.b
      · subst hb
        cases hd : (Overlay.step c f (x.o m).env (w.node m) (.ordinary now x.b)).2.delivered <;>
          simp [hd]
      · simp [hb]
    · simp only [h, if_false, List.filterMap_nil]
      cases y <;> simp [h]

theorem Spread.J.step {x : Spread c f} {H : List Bytes} {w : World c f} (h : x.J H w) {a : Act c} (hok : x.Ok w a) :
    ((x.J H (Gossip.step c f x.o x.ov w a) ∧ ∀ n, givenStep x w a n = []) ∨
      ∃ n, n ∉ H ∧ x.J (n :: H) (Gossip.step c f x.o x.ov w a) ∧
        ∀ n', givenStep x w a n' = if n' = n then [x.d] else []) ∧
    (∀ k now chosen m, a = .deliver k now chosen → w.net[k]? = some m → m.msg = x.msg →
      now ≤ x.b.date + (x.o m.dst).env.timeout →
      x.bid ∈ ((Gossip.step c f x.o x.ov w a).node m.dst).owned.keys) := by
  have quiet : (∀ n y, event c f x.ov w a = some (n, y) → n ∉ H →
        x.bid ∉ (Overlay.step c f (x.o n).env (w.node n) y).1.owned.keys) →
      (∀ m ∈ letters c f x.o x.ov w a, m.msg ≠ x.msg) → (∀ n, givenStep x w a n = []) →
      ((x.J H (Gossip.step c f x.o x.ov w a) ∧ ∀ n, givenStep x w a n = []) ∨
      ∃ n, n ∉ H ∧ x.J (n :: H) (Gossip.step c f x.o x.ov w a) ∧
        ∀ n', givenStep x w a n' = if n' = n then [x.d] else []) :=
    fun h1 h2 h3 => .inl ⟨h.frame hok h1 h2, h3⟩
  cases a with
  | tell n now sec data ts =>
    refine ⟨quiet ?_ (hok.started rfl) (fun _ => rfl), fun k _ _ _ he => by cases he⟩
    intro n' y he hn
    simp only [event, Option.some.injEq, Prod.mk.injEq] at he
    obtain ⟨rfl, rfl⟩ := he
    intro hc
    rcases new_key (h.new n hn) hc with ⟨_, _, _, _, hx, _⟩ | ⟨_, _, hx, _⟩ | hx
    · cases hx
    · cases hx
    · simp only [Action.own.injEq] at hx
      exact hok.tell _ _ _ _ _ rfl hx
  | post m =>
    refine ⟨quiet ?_ (hok.started rfl) (fun _ => rfl), fun k _ _ _ he => by cases he⟩
    intro n' y he
    cases he
  | inner n a =>
    have hg : ∀ n', givenStep x w (.inner n a) n' = [] := by
      intro n'
      unfold givenStep event
      cases a <;> rfl
    refine ⟨quiet ?_ (hok.started rfl) hg, fun k _ _ _ he => by cases he⟩
    intro n' y he hn
    simp only [event] at he
    split at he
    · rename_i hi
      simp only [Option.some.injEq, Prod.mk.injEq] at he
      obtain ⟨rfl, rfl⟩ := he
      intro hc
      rcases new_key (h.new n hn) hc with ⟨_, _, _, _, hx, _⟩ | ⟨_, _, hx, _⟩ | hx <;>
        (rw [hx] at hi; cases hi)
    · cases he
  | deliver k now chosen =>
    cases hk : w.net[k]? with
    | none =>
      have he : event c f x.ov w (.deliver k now chosen) = none := by simp [event, hk]
      refine ⟨quiet (fun n y hy => by rw [he] at hy; cases hy) ?_ ?_, ?_⟩
      · intro m hm; simp [letters, hk] at hm
      · intro n; simp [givenStep, he]
      · intro k' now' chosen' m he' hm
        cases he'
        rw [hk] at hm; cases hm
    | some m =>
      have hev : event c f x.ov w (.deliver k now chosen) = reaction x.ov m now := by simp [event, hk]
      have hmem := List.mem_of_getElem? hk
      by_cases hmsg : m.msg = x.msg
      · have hre : reaction x.ov m now = some (m.dst, .ordinary now x.b) := by
          unfold reaction; rw [hmsg, x.hr]; simp
        rw [hre] at hev
        have hlet : letters c f x.o x.ov w (.deliver k now chosen) =
            if (Overlay.step c f (x.o m.dst).env (w.node m.dst) (.ordinary now x.b)).2.forwarded then
              (onwardTo (x.o m.dst) chosen m.src (.ordinary now x.b)).map fun t => ⟨m.dst, t, m.msg⟩
            else [] := by
          simp only [letters, hk, hre]
        have hgiv : ∀ n, givenStep x w (.deliver k now chosen) n = if m.dst = n then
            (Overlay.step c f (x.o m.dst).env (w.node m.dst) (.ordinary now x.b)).2.delivered.toList else [] := by
          intro n; unfold givenStep; rw [hev]; simp
        have hnode : (Gossip.step c f x.o x.ov w (.deliver k now chosen)).node m.dst =
            (Overlay.step c f (x.o m.dst).env (w.node m.dst) (.ordinary now x.b)).1 := by
          rw [node_step, hev]; simp
        -- nothing happens
        have still : Overlay.step c f (x.o m.dst).env (w.node m.dst) (.ordinary now x.b) = (w.node m.dst, {}) →
            ((x.J H (Gossip.step c f x.o x.ov w (.deliver k now chosen)) ∧
              ∀ n, givenStep x w (.deliver k now chosen) n = []) ∨
            ∃ n, n ∉ H ∧ x.J (n :: H) (Gossip.step c f x.o x.ov w (.deliver k now chosen)) ∧
              ∀ n', givenStep x w (.deliver k now chosen) n' = if n' = n then [x.d] else []) := by
          intro hs
          refine quiet ?_ ?_ ?_
          · intro n y he hn
            rw [hev] at he
            simp only [Option.some.injEq, Prod.mk.injEq] at he
            obtain ⟨rfl, rfl⟩ := he
            rw [hs]
            exact h.new _ hn
          · intro l hl
            rw [hlet, hs] at hl
            simp at hl
          · intro n; rw [hgiv, hs]; simp
        by_cases htime : now ≤ x.b.date + (x.o m.dst).env.timeout
        · have hchk := x.hok m.dst now htime
          by_cases hin : m.dst ∈ H
          · have hkey : x.bid ∈ (w.node m.dst).owned.keys := (h.kept _ hin).key
            have hs : Overlay.step c f (x.o m.dst).env (w.node m.dst) (.ordinary now x.b) = (w.node m.dst, {}) := by
              simp only [Overlay.step, receiveOrdinary, hchk]
              cases hg : (w.node m.dst).owned.get x.bid with
              | none => exact absurd hkey (AMap.get_eq_none_iff.mp hg)
              | some y => rfl
            refine ⟨still hs, ?_⟩
            intro k' now' chosen' m' he' hm' _ _
            cases he'
            rw [hk] at hm'; cases hm'
            rw [hnode, hs]
            exact hkey
          · have hg : (w.node m.dst).owned.get x.bid = none := AMap.get_eq_none_iff.mpr (h.new _ hin)
            have hs : Overlay.step c f (x.o m.dst).env (w.node m.dst) (.ordinary now x.b) =
                ({ w.node m.dst with owned := (w.node m.dst).owned.put x.bid .other }.spawnGc (x.o m.dst).env x.bid,
                  { delivered := some x.d, forwarded := true }) := by
              simp only [Overlay.step, receiveOrdinary, hchk, hg]
              have : (⟨1, x.d.data, x.d.source⟩ : Delivery) = x.d := by
                rw [← x.hone]
              rw [this]
            have hkn := kept_new (e := (x.o m.dst).env) (h.inv m.dst) hg
            have hlet' : letters c f x.o x.ov w (.deliver k now chosen) =
                (targets chosen (x.o m.dst).onward (some m.src)).map fun t => ⟨m.dst, t, x.msg⟩ := by
              rw [hlet, hs, hmsg]; rfl
            refine ⟨.inr ⟨m.dst, hin, ?_, ?_⟩, ?_⟩
            · have hother : ∀ n, n ≠ m.dst →
                  (Gossip.step c f x.o x.ov w (.deliver k now chosen)).node n = w.node n := by
                intro n hn
                rw [node_step, hev]
                simp only
                rw [if_neg (fun hx => hn hx.symm)]
              refine ⟨?_, ?_, ?_, ?_, ?_, ?_, List.nodup_cons.mpr ⟨hin, h.nodup⟩⟩
              · intro n
                by_cases hn : n = m.dst
                · subst hn
                  rw [hnode]
                  exact (h.inv _).eff (step_eff _ _ _)
                · rw [hother n hn]; exact h.inv n
              · intro n
                have := clock_step (o := x.o) (ov := x.ov) w (.deliver k now chosen) n
                have := h.clk n
                omega
              · intro n hn
                by_cases hnd : n = m.dst
                · subst hnd
                  rw [hnode, hs]
                  refine ⟨hkn.key, hkn.cl, hkn.counted, hkn.queue, ?_⟩
                  intro due hd
                  have h1 := hkn.timers due hd
                  have h2 := h.clk m.dst
                  exact Nat.le_trans h2 h1
                · rw [hother n hnd]
                  exact h.kept n ((List.mem_cons.mp hn).resolve_left hnd)
              · intro n hn
                rw [List.mem_cons, not_or] at hn
                rw [hother n hn.1]
                exact h.new n hn.2
              · intro l hl hlm
                rw [net_step, hlet'] at hl
                rcases List.mem_append.mp hl with hl | hl
                · exact List.mem_cons_of_mem _ (h.src l hl hlm)
                · obtain ⟨t, _, rfl⟩ := List.mem_map.mp hl
                  exact List.mem_cons_self ..
              · intro n hn y hy
                rcases List.mem_cons.mp hn with rfl | hn
                · by_cases hys : y = m.src
                  · left
                    rw [hys]
                    exact List.mem_cons_of_mem _ (h.src m hmem hmsg)
                  · right
                    rw [net_step, hlet']
                    refine List.mem_append_right _ (List.mem_map.mpr ⟨y, ?_, rfl⟩)
                    exact hok.draw k now chosen m rfl hk hmsg y hy hys
                · rcases h.pass n hn y hy with hp | hp
                  · exact .inl (List.mem_cons_of_mem _ hp)
                  · exact .inr (by rw [net_step]; exact List.mem_append_left _ hp)
            · intro n'
              rw [hgiv, hs]
              by_cases hn : m.dst = n'
              · simp [hn]
              · have : ¬ n' = m.dst := fun hx => hn hx.symm
                simp [hn, this]
            · intro k' now' chosen' m' he' hm' _ _
              cases he'
              rw [hk] at hm'; cases hm'
              rw [hnode, hs]
              exact hkn.key
        · have hs : Overlay.step c f (x.o m.dst).env (w.node m.dst) (.ordinary now x.b) = (w.node m.dst, {}) := by
            simp only [Overlay.step, receiveOrdinary, x.hold m.dst now htime]
          refine ⟨still hs, ?_⟩
          intro k' now' chosen' m' he' hm' _ ht
          cases he'
          rw [hk] at hm'; cases hm'
          exact absurd ht htime
      · have hun := hok.clean m hmem hmsg
        refine ⟨quiet ?_ ?_ ?_, ?_⟩
        · intro n y he hn hc
          rw [hev] at he
          unfold reaction at he
          rcases new_key (h.new n hn) hc with ⟨_, _, _, _, rfl, hx⟩ | ⟨_, _, rfl, hx⟩ | rfl
          · split at he
            · rename_i id b' hrd
              split at he
              · simp only [Option.some.injEq, Prod.mk.injEq, Action.ordinary.injEq] at he
                obtain ⟨_, rfl, rfl⟩ := he
                exact hun.1 id b' _ _ _ _ hrd hx
              · cases he
            · split at he <;> simp at he
            · cases he
          · split at he
            · split at he <;> simp at he
            · rename_i id b' hrd
              split at he
              · simp only [Option.some.injEq, Prod.mk.injEq, Action.fec.injEq] at he
                obtain ⟨_, rfl, rfl⟩ := he
                exact hun.2 id b' hrd hx
              · cases he
            · cases he
          · split at he
            · split at he <;> simp at he
            · split at he <;> simp at he
            · cases he
        · intro l hl
          simp only [letters, hk] at hl
          split at hl
          · exact absurd hl List.not_mem_nil
          · split at hl
            · obtain ⟨t, _, rfl⟩ := List.mem_map.mp hl
              exact hmsg
            · exact absurd hl List.not_mem_nil
        · intro n
          unfold givenStep
          rw [hev]
          split
          · rename_i n' now' b' he
            by_cases hb : b' = x.b
            · exfalso
              subst hb
              unfold reaction at he
              split at he
              · rename_i id b' hrd
                split at he
                · simp only [Option.some.injEq, Prod.mk.injEq, Action.ordinary.injEq] at he
                  obtain ⟨_, _, rfl⟩ := he
                  exact hun.1 id _ (x.o m.dst).env 0 _ _ hrd (x.hok m.dst 0 (Nat.zero_le _))
                · cases he
              · split at he <;> simp at he
              · cases he
            · simp [hb]
          · rfl
        · intro k' now' chosen' m' he' hm' hmm _
          cases he'
          rw [hk] at hm'; cases hm'
          exact absurd hmm hmsg

theorem run_append (w : World c f) (xs ys : List (Act c)) :
    run c f o ov w (xs ++ ys) = run c f o ov (run c f o ov w xs) ys := by
  induction xs generalizing w with
  | nil => rfl
  | cons a xs ih => exact ih _

theorem net_get (as : List (Act c)) : ∀ (w : World c f) (k : Nat), k < w.net.length →
    (run c f o ov w as).net[k]? = w.net[k]? := by
  induction as with
  | nil => intro w k _; rfl
  | cons a as ih =>
    intro w k hk
    have h := ih (step c f o ov w a) k (by rw [net_step, List.length_append]; omega)
    have hr : run c f o ov w (a :: as) = run c f o ov (step c f o ov w a) as := rfl
    rw [hr, h, net_step, List.getElem?_append_left hk]

theorem Spread.run {x : Spread c f} (as : List (Act c)) : ∀ {H : List Bytes} {w : World c f}, x.J H w →
    (∀ before a after, as = before ++ a :: after → x.Ok (Gossip.run c f x.o x.ov w before) a) →
    ∃ H', x.J H' (Gossip.run c f x.o x.ov w as) ∧ (∀ n ∈ H, n ∈ H') ∧
      (∀ n, given x.o x.ov x.b n w as = if n ∈ H' ∧ n ∉ H then [x.d] else []) ∧
      ∀ k now m, Arrives x.o x.ov w as k now → (Gossip.run c f x.o x.ov w as).net[k]? = some m → m.msg = x.msg →
        now ≤ x.b.date + (x.o m.dst).env.timeout → m.dst ∈ H' := by
  induction as with
  | nil =>
    intro H w h _
    refine ⟨H, h, fun _ hn => hn, ?_, ?_⟩
    · intro n
      rw [if_neg (fun hx => hx.2 hx.1)]
      rfl
    · rintro k now m ⟨before, chosen, after, he, _⟩
      simp at he
  | cons a as ih =>
    intro H w h hok
    have hok1 := hok [] a as rfl
    obtain ⟨hs, harr⟩ := h.step hok1
    have hok2 : ∀ before a' after, as = before ++ a' :: after →
        x.Ok (Gossip.run c f x.o x.ov (Gossip.step c f x.o x.ov w a) before) a' := fun before a' after he =>
      hok (a :: before) a' after (by rw [he]; rfl)
    obtain ⟨H1, hH1, hsub, hg⟩ : ∃ H1, x.J H1 (Gossip.step c f x.o x.ov w a) ∧ (∀ n ∈ H, n ∈ H1) ∧
        ∀ n, givenStep x w a n = if n ∈ H1 ∧ n ∉ H then [x.d] else [] := by
      rcases hs with ⟨h1, h2⟩ | ⟨n, hn, h1, h2⟩
      · refine ⟨H, h1, fun _ hn => hn, fun n => ?_⟩
        rw [if_neg (fun hx => hx.2 hx.1), h2]
      · refine ⟨n :: H, h1, fun _ hx => List.mem_cons_of_mem _ hx, fun n' => ?_⟩
        rw [h2]
        by_cases hnn : n' = n
        · subst hnn
          rw [if_pos rfl, if_pos ⟨List.mem_cons_self .., hn⟩]
        · rw [if_neg hnn, if_neg]
          rintro ⟨hx, hy⟩
          exact hy ((List.mem_cons.mp hx).resolve_left hnn)
    obtain ⟨H2, hH2, hsub2, hg2, ha2⟩ := ih hH1 hok2
    refine ⟨H2, hH2, fun n hn => hsub2 n (hsub n hn), ?_, ?_⟩
    · intro n
      rw [given_cons, hg, hg2]
      by_cases h1 : n ∈ H
      · simp [h1, hsub n h1]
      · by_cases h2 : n ∈ H1
        · simp [h1, h2, hsub2 n h2]
        · simp [h1, h2]
    · rintro k now m ⟨before, chosen, after, he, hlen⟩ hm hmm ht
      cases before with
      | nil =>
        simp only [List.nil_append, List.cons.injEq] at he
        obtain ⟨rfl, rfl⟩ := he
        have hkm : w.net[k]? = some m := by
          rw [← hm]
          exact (net_get (o := x.o) (ov := x.ov) (.deliver k now chosen :: as) w k hlen).symm
        have hkey := harr k now chosen m rfl hkm hmm ht
        by_contra hn
        exact hH1.new m.dst (fun hx => hn (hsub2 _ hx)) hkey
      | cons a' before =>
        simp only [List.cons_append, List.cons.injEq] at he
        obtain ⟨rfl, rfl⟩ := he
        exact ha2 k now m ⟨before, chosen, after, rfl, hlen⟩ hm hmm ht

/-- Once all letters have arrived, everybody connected has the broadcast. -/
theorem Spread.J.connected {x : Spread c f} {H : List Bytes} {w : World c f} (h : x.J H w) {n0 : Bytes} (h0 : n0 ∈ H)
    (hall : ∀ m ∈ w.net, m.msg = x.msg → m.dst ∈ H) {n : Bytes} (hc : Connected x.nb n0 n) : n ∈ H := by
  induction hc with
  | start => exact h0
  | next _ hm ih =>
    rcases h.pass _ ih _ hm with hp | hp
    · exact hp
    · exact hall _ hp rfl

end Verif.Gossip
