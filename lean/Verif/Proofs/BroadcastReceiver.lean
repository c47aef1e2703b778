import Verif.Model.BroadcastReceiver
import Mathlib.Data.List.Basic

/-!
# Invariant of the queue of received broadcasts, without cancelled calls
-/
namespace Verif.BroadcastReceiver

variable {T : Type}

/-! ## Counting -/

theorem countP_mono {α : Type} {p q : α → Bool} {l : List α} (h : ∀ x ∈ l, p x = true → q x = true) :
    l.countP p ≤ l.countP q := List.countP_mono_left h

theorem countP_gain {α : Type} {p q : α → Bool} : ∀ {l : List α} {x : α}, x ∈ l →
    (∀ y ∈ l, p y = true → q y = true) → q x = true → p x = false → l.countP p + 1 ≤ l.countP q := by
  intro l
  induction l with
  | nil => intro x hx; cases hx
  | cons a l ih =>
    intro x hx hm hq hp
    rw [List.countP_cons, List.countP_cons]
    rcases List.mem_cons.mp hx with rfl | hx
    · have := countP_mono (p := p) (q := q) (l := l) (fun y hy => hm y (by simp [hy]))
      simp only [hq, hp, if_true]
      simp
      exact this
    · have h1 := ih hx (fun y hy => hm y (by simp [hy])) hq hp
      have h2 := hm a (by simp)
      cases hpa : p a <;> cases hqa : q a <;> simp_all <;> omega

theorem countP_lose {α : Type} {p q : α → Bool} : ∀ (l : List α) (j : Nat),
    (∀ i x, l[i]? = some x → i ≠ j → p x = true → q x = true) → l.countP p ≤ l.countP q + 1 := by
  intro l
  induction l with
  | nil => intro j _; simp
  | cons a l ih =>
    intro j h
    rw [List.countP_cons, List.countP_cons]
    cases j with
    | zero =>
      have := countP_mono (p := p) (q := q) (l := l) (fun y hy => by
        obtain ⟨i, hi⟩ := List.mem_iff_getElem?.mp hy
        exact h (i + 1) y (by simpa using hi) (by simp))
      split <;> split <;> omega
    | succ j =>
      have h1 := ih j (fun i x hi hne => h (i + 1) x (by simpa using hi) (by omega))
      have h2 := h 0 a (by simp) (by simp)
      cases hpa : p a <;> cases hqa : q a <;> simp_all <;> omega

theorem countP_set' {α : Type} {p : α → Bool} {l : List α} {i : Nat} {x y : α} (h : l[i]? = some x) :
    (l.set i y).countP p + (if p x then 1 else 0) = l.countP p + (if p y then 1 else 0) := by
  induction l generalizing i with
  | nil => cases h
  | cons a l ih =>
    cases i with
    | zero =>
      simp only [List.getElem?_cons_zero, Option.some.injEq] at h
      subst h
      simp only [List.set_cons_zero, List.countP_cons]
      omega
    | succ i =>
      simp only [List.getElem?_cons_succ] at h
      have := ih h
      simp only [List.set_cons_succ, List.countP_cons]
      omega

theorem getElem?_set' {α : Type} {l : List α} {i : Nat} {x y : α} (h : l[i]? = some x) (k : Nat) :
    (l.set i y)[k]? = if k = i then some y else l[k]? := by
  rw [List.getElem?_set]
  have hi : i < l.length := by
    rcases Nat.lt_or_ge i l.length with h' | h'
    · exact h'
    · rw [List.getElem?_eq_none h'] at h; cases h
  by_cases hk : i = k
  · subst hk; simp [hi]
  · rw [if_neg hk, if_neg (fun h => hk h.symm)]

theorem mem_set' {α : Type} {l : List α} {i : Nat} {y z : α} (h : z ∈ l.set i y) : z ∈ l ∨ z = y := by
  rcases List.mem_or_eq_of_mem_set h with h | h
  · exact .inl h
  · exact .inr h

/-! ## The invariant -/

/-- 0 while the consumer has not arrived at `b`, else 1. -/
def cAt : Option (CPc T) → Nat → Nat
  | some (.arrive b'), b => if b' = b then 0 else 1
  | _, _ => 1

/-- 0 while the notifier has not arrived at `b`, else 1. -/
def nAt : Option NPc → Nat → Nat
  | some (.arrive b'), b => if b' = b then 0 else 1
  | _, _ => 1

/-- Between the two changes of `sync_lock`. -/
def inFlight : CPc T → Bool
  | .tryPop | .pushB | .arrive _ | .waiting _ | .got _ => true
  | _ => false

/-- Has found no data and does not look again by itself. -/
def blocked : CPc T → Bool
  | .pushB | .arrive _ | .waiting _ => true
  | _ => false

/-- Notifiers that will still wake someone. -/
def nActive (cnt : Nat → Nat) : NPc → Bool
  | .check | .popB | .arrive _ => true
  | .waiting b => decide (cnt b < 2)
  | .done => false

/-- Consumers that will look for data again. -/
def cActive (cnt : Nat → Nat) : CPc T → Bool
  | .tryPop => true
  | .waiting b => decide (2 ≤ cnt b)
  | _ => false

/-- What is known about barrier `b`. -/
structure BarOk (s : State T) (b : Nat) (r : Bar) : Prop where
  count : r.count = cAt s.consumers[r.owner]? b +
    (match r.taker with | none => 0 | some j => nAt s.notifiers[j]? b)
  cons : r.count < 2 → s.consumers[r.owner]? = some (.arrive b) ∨ s.consumers[r.owner]? = some (.waiting b)
  nots : ∀ j, r.taker = some j → r.count < 2 →
    s.notifiers[j]? = some (.arrive b) ∨ s.notifiers[j]? = some (.waiting b)
  queue : r.taker = none ↔ b ∈ s.barriers

/-- Number of those who will look for data or wake someone. -/
def weight (s : State T) : Nat :=
  s.toSpawn + s.notifiers.countP (nActive s.count) + s.consumers.countP (cActive s.count)

structure Inv (s : State T) : Prop where
  sync : s.sync = s.consumers.countP inFlight
  cons : ∀ (i b : Nat), s.consumers[i]? = some (.arrive b) ∨ s.consumers[i]? = some (.waiting b) →
    ∃ r : Bar, s.bars[b]? = some r ∧ r.owner = i
  nots : ∀ (j b : Nat), s.notifiers[j]? = some (.arrive b) ∨ s.notifiers[j]? = some (.waiting b) →
    ∃ r : Bar, s.bars[b]? = some r ∧ r.taker = some j
  nodup : s.barriers.Nodup
  queue : ∀ b ∈ s.barriers, b < s.bars.length
  bars : ∀ (b : Nat) (r : Bar), s.bars[b]? = some r → BarOk s b r
  enough : (∃ p ∈ s.consumers, blocked p = true) → s.data.length ≤ weight s

theorem inv_init : Inv (State.init : State T) := by
  constructor <;> simp [State.init]

theorem count_of {s : State T} {b : Nat} {r : Bar} (h : s.bars[b]? = some r) : s.count b = r.count := by
  simp [State.count, h]

theorem cAt_ne {p : Option (CPc T)} {b : Nat} (h : p ≠ some (.arrive b)) : cAt p b = 1 := by
  unfold cAt
  split
  · rename_i b'
    rw [if_neg]
    rintro rfl
    exact h rfl
  · rfl

theorem nAt_ne {p : Option NPc} {b : Nat} (h : p ≠ some (.arrive b)) : nAt p b = 1 := by
  unfold nAt
  split
  · rename_i b'
    rw [if_neg]
    rintro rfl
    exact h rfl
  · rfl

theorem cAt_arrive (b : Nat) : cAt (some (.arrive b) : Option (CPc T)) b = 0 := by simp [cAt]

theorem nAt_arrive (b : Nat) : nAt (some (.arrive b)) b = 0 := by simp [nAt]

/-- Barrier facts survive a step of consumer `i` that has nothing to do with the barrier. -/
theorem BarOk.setConsumer {s s' : State T} {b : Nat} {r : Bar} (h : BarOk s b r) {i : Nat} {p p' : CPc T}
    (hp : s.consumers[i]? = some p) (hc : s'.consumers = s.consumers.set i p') (hn : s'.notifiers = s.notifiers)
    (hq : b ∈ s'.barriers ↔ b ∈ s.barriers)
    (h1 : p ≠ .arrive b) (h2 : p ≠ .waiting b ∨ 2 ≤ r.count) (h3 : p' ≠ .arrive b) : BarOk s' b r := by
  by_cases ho : r.owner = i
  · have hold : s.consumers[r.owner]? = some p := by rw [ho]; exact hp
    have hnew : s'.consumers[r.owner]? = some p' := by
      rw [ho, hc, getElem?_set' hp]; simp
    have hcnt : 2 ≤ r.count := by
      rcases h2 with h2 | h2
      · rcases Nat.lt_or_ge r.count 2 with hlt | hge
        · rcases h.cons hlt with h' | h'
          · rw [hold] at h'; exact absurd (Option.some.inj h') h1
          · rw [hold] at h'; exact absurd (Option.some.inj h') h2
        · exact hge
      · exact h2
    refine ⟨?_, fun hlt => by omega, fun j _ hlt => by omega, h.queue.trans hq.symm⟩
    rw [h.count, hold, hnew, hn, cAt_ne (by simpa using h1), cAt_ne (by simpa using h3)]
  · have : s'.consumers[r.owner]? = s.consumers[r.owner]? := by
      rw [hc, getElem?_set' hp, if_neg ho]
    refine ⟨?_, ?_, ?_, h.queue.trans hq.symm⟩
    · rw [this, hn]; exact h.count
    · rw [this]; exact h.cons
    · rw [hn]; exact h.nots

/-- The same for a step of notifier `j`. -/
theorem BarOk.setNotifier {s s' : State T} {b : Nat} {r : Bar} (h : BarOk s b r) {j : Nat} {p p' : NPc}
    (hp : s.notifiers[j]? = some p) (hn : s'.notifiers = s.notifiers.set j p') (hc : s'.consumers = s.consumers)
    (hq : b ∈ s'.barriers ↔ b ∈ s.barriers)
    (h1 : p ≠ .arrive b) (h2 : p ≠ .waiting b ∨ 2 ≤ r.count) (h3 : p' ≠ .arrive b) : BarOk s' b r := by
  by_cases ho : r.taker = some j
  · have hnew : s'.notifiers[j]? = some p' := by rw [hn, getElem?_set' hp]; simp
    have hcnt : 2 ≤ r.count := by
      rcases h2 with h2 | h2
      · rcases Nat.lt_or_ge r.count 2 with hlt | hge
        · rcases h.nots j ho hlt with h' | h'
          · rw [hp] at h'; exact absurd (Option.some.inj h') h1
          · rw [hp] at h'; exact absurd (Option.some.inj h') h2
        · exact hge
      · exact h2
    refine ⟨?_, fun hlt => by omega, fun j _ hlt => by omega, h.queue.trans hq.symm⟩
    have hcount := h.count
    rw [ho] at hcount ⊢
    simp only at hcount ⊢
    rw [hcount, hp, hnew, hc, nAt_ne (by simpa using h1), nAt_ne (by simpa using h3)]
  · have hsame : ∀ k, r.taker = some k → s'.notifiers[k]? = s.notifiers[k]? := by
      intro k hk
      rw [hn, getElem?_set' hp, if_neg]
      rintro rfl
      exact ho hk
    refine ⟨?_, ?_, ?_, h.queue.trans hq.symm⟩
    · rw [hc, h.count]
      cases hk : r.taker with
      | none => rfl
      | some k => simp only [hsame k hk]
    · rw [hc]; exact h.cons
    · intro k hk; rw [hsame k hk]; exact h.nots k hk

theorem BarOk.congr {s s' : State T} {b : Nat} {r : Bar} (h : BarOk s b r)
    (hc : s'.consumers[r.owner]? = s.consumers[r.owner]?)
    (hn : ∀ j, r.taker = some j → s'.notifiers[j]? = s.notifiers[j]?) (hq : s'.barriers = s.barriers) :
    BarOk s' b r := by
  refine ⟨?_, by rw [hc]; exact h.cons, fun j hj => by rw [hn j hj]; exact h.nots j hj, by rw [hq]; exact h.queue⟩
  rw [hc, h.count]
  cases hk : r.taker with
  | none => rfl
  | some k => simp only [hn k hk]

theorem getElem?_append_one {α : Type} (l : List α) (a : α) (i : Nat) (x : α) :
    (l ++ [a])[i]? = some x ↔ l[i]? = some x ∨ (i = l.length ∧ x = a) := by
  rcases Nat.lt_trichotomy i l.length with h | h | h
  · rw [List.getElem?_append_left h]
    constructor
    · exact .inl
    · rintro (h' | ⟨h', _⟩)
      · exact h'
      · omega
  · subst h
    simp only [List.getElem?_append_right (Nat.le_refl _), Nat.sub_self, List.getElem?_cons_zero,
      Option.some.injEq, List.getElem?_eq_none (Nat.le_refl _)]
    constructor
    · rintro rfl; exact .inr ⟨trivial, rfl⟩
    · rintro (h' | ⟨_, rfl⟩)
      · cases h'
      · rfl
  · rw [List.getElem?_eq_none (by simp; omega), List.getElem?_eq_none (by omega)]
    constructor
    · intro h'; cases h'
    · rintro (h' | ⟨h', _⟩)
      · cases h'
      · omega

theorem lt_of_getElem? {α : Type} {l : List α} {i : Nat} {x : α} (h : l[i]? = some x) : i < l.length := by
  rcases Nat.lt_or_ge i l.length with h' | h'
  · exact h'
  · rw [List.getElem?_eq_none h'] at h; cases h

/-! ### Steps that touch no barrier -/

theorem inv_push {s : State T} (h : Inv s) (x : T) : Inv (step s (.push x)) := by
  refine ⟨h.sync, h.cons, h.nots, h.nodup, h.queue, fun b r hb => (h.bars b r hb).congr rfl (fun _ _ => rfl) rfl, ?_⟩
  intro hb
  have := h.enough hb
  show (s.data ++ [x]).length ≤ s.toSpawn + 1 + _ + _
  unfold weight at this
  simp only [List.length_append, List.length_cons, List.length_nil]
  have e : ∀ b, State.count (step s (.push x)) b = s.count b := fun _ => rfl
  show s.data.length + 1 ≤ s.toSpawn + 1 + s.notifiers.countP (nActive s.count) +
    s.consumers.countP (cActive s.count)
  omega

theorem inv_spawn {s : State T} (h : Inv s) : Inv (step s .spawn) := by
  simp only [step]
  split
  · exact h
  · rename_i hz
    refine ⟨h.sync, h.cons, ?_, h.nodup, h.queue, ?_, ?_⟩
    · intro j b hj
      refine h.nots j b ?_
      rcases hj with hj | hj
      · rcases (getElem?_append_one _ _ _ _).mp hj with h' | ⟨_, h'⟩
        · exact .inl h'
        · cases h'
      · rcases (getElem?_append_one _ _ _ _).mp hj with h' | ⟨_, h'⟩
        · exact .inr h'
        · cases h'
    · intro b r hb
      have hok := h.bars b r hb
      have hold : ∀ j, r.taker = some j → r.count < 2 → j < s.notifiers.length := by
        intro j hj hlt
        rcases hok.nots j hj hlt with h' | h' <;> exact lt_of_getElem? h'
      refine ⟨?_, hok.cons, ?_, hok.queue⟩
      · rw [hok.count]
        cases hk : r.taker with
        | none => rfl
        | some k =>
          simp only
          congr 1
          rcases Nat.lt_or_ge k s.notifiers.length with hl | hl
          · rw [List.getElem?_append_left hl]
          · rw [List.getElem?_eq_none hl, nAt_ne (by simp), nAt_ne]
            intro hc
            rcases (getElem?_append_one _ _ _ _).mp hc with h' | ⟨_, h'⟩
            · rw [List.getElem?_eq_none hl] at h'; cases h'
            · cases h'
      · intro j hj hlt
        show (s.notifiers ++ [NPc.check])[j]? = _ ∨ (s.notifiers ++ [NPc.check])[j]? = _
        rw [List.getElem?_append_left (hold j hj hlt)]
        exact hok.nots j hj hlt
    · intro hb
      have := h.enough hb
      show s.data.length ≤ (s.toSpawn - 1) + (s.notifiers ++ [NPc.check]).countP (nActive s.count) +
        s.consumers.countP (cActive s.count)
      unfold weight at this
      rw [List.countP_append]
      have : [NPc.check].countP (nActive s.count) = 1 := by simp [nActive]
      omega

theorem inv_call {s : State T} (h : Inv s) : Inv (step s .call) := by
  simp only [step]
  refine ⟨?_, ?_, h.nots, h.nodup, h.queue, ?_, ?_⟩
  · show s.sync = (s.consumers ++ [CPc.start]).countP inFlight
    rw [List.countP_append, h.sync]
    simp [inFlight]
  · intro i b hi
    refine h.cons i b ?_
    rcases hi with hi | hi
    · rcases (getElem?_append_one _ _ _ _).mp hi with h' | ⟨_, h'⟩
      · exact .inl h'
      · cases h'
    · rcases (getElem?_append_one _ _ _ _).mp hi with h' | ⟨_, h'⟩
      · exact .inr h'
      · cases h'
  · intro b r hb
    have hok := h.bars b r hb
    refine ⟨?_, ?_, hok.nots, hok.queue⟩
    · rw [hok.count]
      congr 1
      rcases Nat.lt_or_ge r.owner s.consumers.length with hl | hl
      · rw [List.getElem?_append_left hl]
      · rw [List.getElem?_eq_none hl, cAt_ne (by simp), cAt_ne]
        intro hc
        rcases (getElem?_append_one _ _ _ _).mp hc with h' | ⟨_, h'⟩
        · rw [List.getElem?_eq_none hl] at h'; cases h'
        · cases h'
    · intro hlt
      have hl : r.owner < s.consumers.length := by
        rcases hok.cons hlt with h' | h' <;> exact lt_of_getElem? h'
      show (s.consumers ++ [CPc.start])[r.owner]? = _ ∨ (s.consumers ++ [CPc.start])[r.owner]? = _
      rw [List.getElem?_append_left hl]
      exact hok.cons hlt
  · rintro ⟨p, hp, hb⟩
    have hp' : p ∈ s.consumers := by
      rcases List.mem_append.mp hp with h' | h'
      · exact h'
      · rw [List.mem_singleton.mp h'] at hb; cases hb
    have := h.enough ⟨p, hp', hb⟩
    show s.data.length ≤ s.toSpawn + s.notifiers.countP (nActive s.count) +
      (s.consumers ++ [CPc.start]).countP (cActive s.count)
    unfold weight at this
    rw [List.countP_append]
    omega

/-! ### Steps of consumers -/

theorem blocked_of_set {l : List (CPc T)} {i : Nat} {p' : CPc T} (hb : blocked p' = false)
    (h : ∃ p ∈ l.set i p', blocked p = true) : ∃ p ∈ l, blocked p = true := by
  obtain ⟨p, hp, hbp⟩ := h
  rcases mem_set' hp with h' | h'
  · exact ⟨p, h', hbp⟩
  · rw [h', hb] at hbp; cases hbp

/-- A step of consumer `i` that touches no barrier. -/
theorem inv_setConsumer {s : State T} (h : Inv s) {i : Nat} {p p' : CPc T} (hp : s.consumers[i]? = some p)
    (data : List T) (sync : Nat) (popped : List (Nat × T))
    (hsync : sync + (if inFlight p then 1 else 0) = s.sync + (if inFlight p' then 1 else 0))
    (h1 : ∀ b, p ≠ .arrive b) (h2 : ∀ b, p = .waiting b → 2 ≤ s.count b) (h3 : ∀ b, p' ≠ .arrive b)
    (h4 : ∀ b, p' ≠ .waiting b)
    (hw : (∃ q ∈ s.consumers.set i p', blocked q = true) →
      data.length + (if cActive s.count p then 1 else 0) ≤
        s.toSpawn + s.notifiers.countP (nActive s.count) + s.consumers.countP (cActive s.count) +
          (if cActive s.count p' then 1 else 0)) :
    Inv { s with data := data, sync := sync, consumers := s.consumers.set i p', popped := popped } := by
  refine ⟨?_, ?_, h.nots, h.nodup, h.queue, ?_, ?_⟩
  · show sync = (s.consumers.set i p').countP inFlight
    have := countP_set' (p := inFlight) (y := p') hp
    have := h.sync
    omega
  · intro k b hk
    refine h.cons k b ?_
    have e : (s.consumers.set i p')[k]? = if k = i then some p' else s.consumers[k]? := getElem?_set' hp k
    show s.consumers[k]? = _ ∨ s.consumers[k]? = _
    change (s.consumers.set i p')[k]? = _ ∨ (s.consumers.set i p')[k]? = _ at hk
    rw [e] at hk
    split at hk
    · rcases hk with hk | hk
      · exact absurd (Option.some.inj hk) (h3 b)
      · exact absurd (Option.some.inj hk) (h4 b)
    · exact hk
  · intro b r hb
    refine (h.bars b r hb).setConsumer hp rfl rfl Iff.rfl (h1 b) ?_ (h3 b)
    by_cases hpw : p = .waiting b
    · refine .inr ?_
      have := h2 b hpw
      rwa [count_of (s := s) hb] at this
    · exact .inl hpw
  · intro hb
    have := countP_set' (p := cActive s.count) (y := p') hp
    have := hw hb
    show data.length ≤ s.toSpawn + s.notifiers.countP (nActive s.count) +
      (s.consumers.set i p').countP (cActive s.count)
    omega

theorem getElem?_arriveAt (bars : List Bar) (b k : Nat) :
    (arriveAt bars b)[k]? = if k = b then (bars[k]?).map (fun r => { r with count := r.count + 1 })
      else bars[k]? := by
  unfold arriveAt
  rw [List.getElem?_modify]
  by_cases h : b = k
  · subst h; cases bars[b]? <;> simp
  · rw [if_neg (fun e => h e.symm)]
    cases bars[k]? <;> simp [h]

theorem arriveAt_length (bars : List Bar) (b : Nat) : (arriveAt bars b).length = bars.length := by
  simp [arriveAt]

/-- Counts after an arrival. -/
theorem count_arrive {s s' : State T} {b : Nat} {r : Bar} (hb : s.bars[b]? = some r)
    (hs : s'.bars = arriveAt s.bars b) (k : Nat) :
    s'.count k = if k = b then r.count + 1 else s.count k := by
  unfold State.count
  rw [hs, getElem?_arriveAt]
  by_cases hk : k = b
  · subst hk; simp [hb]
  · simp [hk]

theorem inv_pushB {s : State T} (h : Inv s) {i : Nat} (hp : s.consumers[i]? = some .pushB) :
    Inv (consumerStep s i .pushB) := by
  have hcs : ∀ k, (s.consumers.set i (CPc.arrive s.bars.length))[k]? =
      if k = i then some (CPc.arrive s.bars.length) else s.consumers[k]? := getElem?_set' hp
  have hcount : ∀ k, State.count (consumerStep s i .pushB) k = s.count k := by
    intro k
    unfold State.count
    show (match (s.bars ++ [(⟨0, i, none⟩ : Bar)])[k]? with | some r => r.count | none => 0) = _
    rcases Nat.lt_trichotomy k s.bars.length with hl | hl | hl
    · rw [List.getElem?_append_left hl]; rfl
    · subst hl; simp
    · rw [List.getElem?_eq_none (by simp; omega), List.getElem?_eq_none (by omega)]
  have hnew : ∀ b r, s.bars[b]? = some r → b ≠ s.bars.length := fun b r hb => by
    have := lt_of_getElem? hb; omega
  refine ⟨?_, ?_, ?_, ?_, ?_, ?_, ?_⟩
  · show s.sync = (s.consumers.set i (CPc.arrive s.bars.length)).countP inFlight
    have := countP_set' (p := inFlight) (y := CPc.arrive s.bars.length) hp
    have := h.sync
    simp only [inFlight, if_true] at *
    omega
  · intro k b hk
    change (s.consumers.set i (CPc.arrive s.bars.length))[k]? = _ ∨
      (s.consumers.set i (CPc.arrive s.bars.length))[k]? = _ at hk
    rw [hcs] at hk
    show ∃ r : Bar, (s.bars ++ [(⟨0, i, none⟩ : Bar)])[b]? = some r ∧ r.owner = k
    split at hk
    · rename_i hki
      rcases hk with hk | hk
      · cases hk
        exact ⟨⟨0, i, none⟩, by simp, hki.symm⟩
      · cases hk
    · obtain ⟨r, hr, ho⟩ := h.cons k b hk
      exact ⟨r, (getElem?_append_one _ _ _ _).mpr (.inl hr), ho⟩
  · intro j b hj
    obtain ⟨r, hr, ho⟩ := h.nots j b hj
    exact ⟨r, (getElem?_append_one _ _ _ _).mpr (.inl hr), ho⟩
  · show (s.barriers ++ [s.bars.length]).Nodup
    rw [List.nodup_append]
    refine ⟨h.nodup, by simp, ?_⟩
    intro a ha b hb hab
    have := h.queue a ha
    rw [List.mem_singleton] at hb
    omega
  · intro b hb
    show b < (s.bars ++ [_]).length
    rcases List.mem_append.mp hb with hb | hb
    · have := h.queue b hb
      simp; omega
    · rw [List.mem_singleton.mp hb]; simp
  · intro b r hb
    rcases (getElem?_append_one _ _ _ _).mp hb with hb | ⟨hbl, hr⟩
    · refine (h.bars b r hb).setConsumer hp (s' := consumerStep s i .pushB) rfl rfl ?_ (by simp) (.inl (by simp)) ?_
      · show b ∈ s.barriers ++ [s.bars.length] ↔ b ∈ s.barriers
        have := hnew b r hb
        simp [this]
      · have := hnew b r hb
        simp; omega
    · subst hr
      have hc : (consumerStep s i .pushB).consumers[i]? = some (.arrive b) := by
        show (s.consumers.set i (CPc.arrive s.bars.length))[i]? = _
        rw [hcs, if_pos rfl, hbl]
      refine ⟨?_, fun _ => .inl hc, fun j hj => (by cases hj), ?_⟩
      · show 0 = cAt (consumerStep s i .pushB).consumers[i]? b + 0
        rw [hc, cAt_arrive]
      · show _ ↔ b ∈ s.barriers ++ [s.bars.length]
        simp [hbl]
  · intro _
    have hold := h.enough ⟨.pushB, List.mem_of_getElem? hp, rfl⟩
    have := countP_set' (p := cActive s.count) (y := CPc.arrive s.bars.length) hp
    unfold weight at hold ⊢
    have e : State.count (consumerStep s i .pushB) = s.count := funext hcount
    rw [e]
    show s.data.length ≤ s.toSpawn + s.notifiers.countP (nActive s.count) +
      (s.consumers.set i (CPc.arrive s.bars.length)).countP (cActive s.count)
    have e1 : cActive s.count (CPc.pushB : CPc T) = false := rfl
    have e2 : cActive s.count (CPc.arrive s.bars.length : CPc T) = false := rfl
    rw [e1, e2] at this
    simp only [Bool.false_eq_true, if_false] at this
    omega

theorem inv_arriveC {s : State T} (h : Inv s) {i b : Nat} (hp : s.consumers[i]? = some (.arrive b)) :
    Inv (consumerStep s i (.arrive b)) := by
  obtain ⟨r, hr, ho⟩ := h.cons i b (.inl hp)
  have hok := h.bars b r hr
  have hcs : ∀ k, (s.consumers.set i (CPc.waiting b))[k]? =
      if k = i then some (CPc.waiting b) else s.consumers[k]? := getElem?_set' hp
  have hcount := count_arrive (s' := consumerStep s i (.arrive b)) hr rfl
  have hoc : s.consumers[r.owner]? = some (.arrive b) := by rw [ho]; exact hp
  have hcnt : r.count = match r.taker with | none => 0 | some j => nAt s.notifiers[j]? b := by
    have := hok.count
    rw [hoc, cAt_arrive] at this
    omega
  have hbar : ∀ (k : Nat) (r' : Bar), (arriveAt s.bars b)[k]? = some r' →
      (k = b ∧ r' = { r with count := r.count + 1 }) ∨ (k ≠ b ∧ s.bars[k]? = some r') := by
    intro k r' hk
    rw [getElem?_arriveAt] at hk
    split at hk
    · rename_i he
      subst he
      rw [hr] at hk
      simp only [Option.map_some, Option.some.injEq] at hk
      exact .inl ⟨rfl, hk.symm⟩
    · rename_i he
      exact .inr ⟨he, hk⟩
  have hget : ∀ (k : Nat) (r' : Bar), s.bars[k]? = some r' →
      ∃ r'' : Bar, (arriveAt s.bars b)[k]? = some r'' ∧ r''.owner = r'.owner ∧ r''.taker = r'.taker := by
    intro k r' hk
    rw [getElem?_arriveAt, hk]
    split
    · exact ⟨_, rfl, rfl, rfl⟩
    · exact ⟨r', rfl, rfl, rfl⟩
  refine ⟨?_, ?_, ?_, h.nodup, ?_, ?_, ?_⟩
  · show s.sync = (s.consumers.set i (CPc.waiting b)).countP inFlight
    have := countP_set' (p := inFlight) (y := CPc.waiting b) hp
    have := h.sync
    simp only [inFlight, if_true] at *
    omega
  · intro k b' hk
    change (s.consumers.set i (CPc.waiting b))[k]? = _ ∨ (s.consumers.set i (CPc.waiting b))[k]? = _ at hk
    rw [hcs] at hk
    have hold : ∃ r : Bar, s.bars[b']? = some r ∧ r.owner = k := by
      split at hk
      · rename_i hki
        rcases hk with hk | hk
        · cases hk
        · cases hk
          exact ⟨r, hr, ho.trans hki.symm⟩
      · exact h.cons k b' hk
    obtain ⟨r', hr', ho'⟩ := hold
    obtain ⟨r'', h1, h2, _⟩ := hget b' r' hr'
    exact ⟨r'', h1, h2.trans ho'⟩
  · intro j b' hj
    obtain ⟨r', hr', ht'⟩ := h.nots j b' hj
    obtain ⟨r'', h1, _, h2⟩ := hget b' r' hr'
    exact ⟨r'', h1, h2.trans ht'⟩
  · intro b' hb'
    show b' < (arriveAt s.bars b).length
    rw [arriveAt_length]
    exact h.queue b' hb'
  · intro b' r' hb'
    rcases hbar b' r' hb' with ⟨rfl, rfl⟩ | ⟨hne, hb''⟩
    · have hc : (consumerStep s i (.arrive b')).consumers[r.owner]? = some (.waiting b') := by
        show (s.consumers.set i (CPc.waiting b'))[r.owner]? = _
        rw [hcs, if_pos ho]
      refine ⟨?_, fun _ => .inr hc, ?_, hok.queue⟩
      · show r.count + 1 = cAt (consumerStep s i (.arrive b')).consumers[r.owner]? b' + _
        rw [hc, cAt_ne (by simp), hcnt]
        exact Nat.add_comm _ _
      · intro j hj hlt
        exact hok.nots j hj (by simp only at hlt; omega)
    · refine (h.bars b' r' hb'').setConsumer hp (s' := consumerStep s i (.arrive b)) rfl rfl Iff.rfl ?_ (.inl (by simp)) (by simp)
      intro hc
      cases hc
      exact hne rfl
  · intro _
    have hold := h.enough ⟨.arrive b, List.mem_of_getElem? hp, rfl⟩
    unfold weight at hold ⊢
    show s.data.length ≤ s.toSpawn + s.notifiers.countP (nActive (consumerStep s i (.arrive b)).count) +
      (s.consumers.set i (CPc.waiting b)).countP (cActive (consumerStep s i (.arrive b)).count)
    -- the consumers
    have hset := countP_set' (p := cActive (consumerStep s i (.arrive b)).count) (y := CPc.waiting b) hp
    have hmono : s.consumers.countP (cActive s.count) ≤
        s.consumers.countP (cActive (consumerStep s i (.arrive b)).count) := by
      refine countP_mono fun p _ => ?_
      cases p with
      | waiting b' =>
        simp only [cActive, decide_eq_true_eq, hcount]
        split
        · rename_i he; subst he; rw [count_of hr]; omega
        · exact id
      | _ => exact id
    have hcb : (consumerStep s i (.arrive b)).count b = r.count + 1 := by rw [hcount, if_pos rfl]
    have hset' : (s.consumers.set i (CPc.waiting b)).countP (cActive (consumerStep s i (.arrive b)).count) =
        s.consumers.countP (cActive (consumerStep s i (.arrive b)).count) + (if 2 ≤ r.count + 1 then 1 else 0) := by
      simp only [cActive, hcb, decide_eq_true_eq] at hset
      simpa using hset
    rw [hset']
    -- the notifiers
    by_cases h2 : 2 ≤ r.count + 1
    · rw [if_pos h2]
      have : ∃ j, r.taker = some j := by
        cases ht : r.taker with
        | none => rw [ht] at hcnt; simp only at hcnt; omega
        | some j => exact ⟨j, rfl⟩
      obtain ⟨j, hj⟩ := this
      have hlose := countP_lose (p := nActive s.count) (q := nActive (consumerStep s i (.arrive b)).count)
        s.notifiers j (by
          intro k x hk hne
          cases x with
          | waiting b' =>
            simp only [nActive, decide_eq_true_eq, hcount]
            split
            · rename_i he
              subst he
              obtain ⟨r', hr', ht'⟩ := h.nots k b' (.inr hk)
              rw [hr] at hr'
              cases hr'
              rw [hj] at ht'
              exact absurd (Option.some.inj ht').symm hne
            · exact id
          | _ => exact id)
      omega
    · rw [if_neg h2]
      have hmn : s.notifiers.countP (nActive s.count) ≤
          s.notifiers.countP (nActive (consumerStep s i (.arrive b)).count) := by
        refine countP_mono fun p _ => ?_
        cases p with
        | waiting b' =>
          simp only [nActive, decide_eq_true_eq, hcount]
          split
          · intro _; omega
          · exact id
        | _ => exact id
      omega

theorem inv_consumer {s : State T} (h : Inv s) (i : Nat) : Inv (step s (.consumer i)) := by
  simp only [step]
  cases hp : s.consumers[i]? with
  | none => exact h
  | some p =>
    simp only []
    cases p with
    | start =>
      refine inv_setConsumer h hp s.data (s.sync + 1) s.popped (by simp [inFlight]) (by simp) (by simp) (by simp)
        (by simp) ?_
      intro hb
      have := h.enough (blocked_of_set rfl hb)
      unfold weight at this
      simp only [cActive]
      simp
      omega
    | tryPop =>
      simp only [consumerStep]
      cases hd : s.data with
      | nil =>
        refine inv_setConsumer h hp [] s.sync s.popped (by simp [inFlight]) (by simp) (by simp) (by simp)
          (by simp) ?_
        intro _
        have hc : 1 ≤ s.consumers.countP (cActive s.count) :=
          List.countP_pos_iff.mpr ⟨.tryPop, List.mem_of_getElem? hp, rfl⟩
        simp only [cActive, List.length_nil]
        simp
        omega
      | cons x rest =>
        refine inv_setConsumer h hp rest s.sync (s.popped ++ [(i, x)]) (by simp [inFlight]) (by simp) (by simp)
          (by simp) (by simp) ?_
        intro hb
        have := h.enough (blocked_of_set rfl hb)
        unfold weight at this
        rw [hd] at this
        simp only [List.length_cons] at this
        simp only [cActive]
        simp
        omega
    | pushB => exact inv_pushB h hp
    | arrive b => exact inv_arriveC h hp
    | waiting b =>
      simp only [consumerStep]
      split
      · exact h
      · rename_i hc
        refine inv_setConsumer h hp s.data s.sync s.popped (by simp [inFlight]) (by simp) ?_ (by simp) (by simp) ?_
        · intro b' hb'; cases hb'; omega
        · intro hb
          have := h.enough (blocked_of_set rfl hb)
          unfold weight at this
          have hc' : 2 ≤ s.count b := by omega
          simp only [cActive, hc', decide_true, if_true]
          omega
    | got x =>
      have hpos : 1 ≤ s.sync := by
        rw [h.sync]
        exact List.countP_pos_iff.mpr ⟨_, List.mem_of_getElem? hp, rfl⟩
      refine inv_setConsumer h hp s.data (s.sync - 1) s.popped (by simp [inFlight]; omega) (by simp) (by simp) (by simp)
        (by simp) ?_
      intro hb
      have := h.enough (blocked_of_set rfl hb)
      unfold weight at this
      simp only [cActive]
      simp
      omega
    | returned x => exact h
    | cancelled => exact h

/-! ### Steps of notifiers -/

/-- A step of notifier `j` that touches no barrier. -/
theorem inv_setNotifier {s : State T} (h : Inv s) {j : Nat} {p p' : NPc} (hp : s.notifiers[j]? = some p)
    (h1 : ∀ b, p ≠ .arrive b) (h2 : ∀ b, p = .waiting b → 2 ≤ s.count b) (h3 : ∀ b, p' ≠ .arrive b)
    (h4 : ∀ b, p' ≠ .waiting b)
    (hw : (∃ q ∈ s.consumers, blocked q = true) → nActive s.count p = true → nActive s.count p' = true) :
    Inv { s with notifiers := s.notifiers.set j p' } := by
  refine ⟨h.sync, h.cons, ?_, h.nodup, h.queue, ?_, ?_⟩
  · intro k b hk
    refine h.nots k b ?_
    have e : (s.notifiers.set j p')[k]? = if k = j then some p' else s.notifiers[k]? := getElem?_set' hp k
    show s.notifiers[k]? = _ ∨ s.notifiers[k]? = _
    change (s.notifiers.set j p')[k]? = _ ∨ (s.notifiers.set j p')[k]? = _ at hk
    rw [e] at hk
    split at hk
    · rcases hk with hk | hk
      · exact absurd (Option.some.inj hk) (h3 b)
      · exact absurd (Option.some.inj hk) (h4 b)
    · exact hk
  · intro b r hb
    refine (h.bars b r hb).setNotifier hp rfl rfl Iff.rfl (h1 b) ?_ (h3 b)
    by_cases hpw : p = .waiting b
    · refine .inr ?_
      have := h2 b hpw
      rwa [count_of (s := s) hb] at this
    · exact .inl hpw
  · intro hb
    have h5 := countP_set' (p := nActive s.count) (y := p') hp
    have h6 := h.enough hb
    have h7 := hw hb
    unfold weight at h6
    show s.data.length ≤ s.toSpawn + (s.notifiers.set j p').countP (nActive s.count) +
      s.consumers.countP (cActive s.count)
    cases hpa : nActive s.count p
    · rw [hpa] at h5
      simp only [Bool.false_eq_true, if_false] at h5
      omega
    · rw [hpa, h7 hpa] at h5
      omega

theorem count_take {s : State T} {b j k : Nat} :
    State.count { s with bars := s.bars.modify b fun r => { r with taker := some j } } k = s.count k := by
  unfold State.count
  simp only [List.getElem?_modify]
  cases s.bars[k]? with
  | none => rfl
  | some r => simp only [Option.map_eq_map, Option.map_some]; split <;> rfl

theorem inv_popB {s : State T} (h : Inv s) {j b : Nat} {rest : List Nat} (hp : s.notifiers[j]? = some .popB)
    (hq : s.barriers = b :: rest) :
    Inv { s with barriers := rest
                 bars := s.bars.modify b fun r => { r with taker := some j }
                 notifiers := s.notifiers.set j (.arrive b) } := by
  have hns : ∀ k, (s.notifiers.set j (NPc.arrive b))[k]? =
      if k = j then some (NPc.arrive b) else s.notifiers[k]? := getElem?_set' hp
  have hbm : b ∈ s.barriers := by rw [hq]; simp
  have hnd := h.nodup
  rw [hq, List.nodup_cons] at hnd
  obtain ⟨r, hr⟩ : ∃ r, s.bars[b]? = some r := by
    have := h.queue b hbm
    exact ⟨s.bars[b], by simp [this]⟩
  have hok := h.bars b r hr
  have htn : r.taker = none := hok.queue.mpr hbm
  have hget : ∀ k : Nat, (s.bars.modify b fun r => { r with taker := some j })[k]? =
      if k = b then some { r with taker := some j } else s.bars[k]? := by
    intro k
    rw [List.getElem?_modify]
    by_cases hk : b = k
    · subst hk; simp [hr]
    · rw [if_neg (fun e => hk e.symm)]
      cases s.bars[k]? <;> simp [hk]
  refine ⟨h.sync, ?_, ?_, hnd.2, ?_, ?_, ?_⟩
  · intro k b' hk
    obtain ⟨r', hr', ho'⟩ := h.cons k b' hk
    show ∃ r'' : Bar, (s.bars.modify b fun r => { r with taker := some j })[b']? = some r'' ∧ r''.owner = k
    rw [hget]
    split
    · rename_i he
      subst he
      rw [hr] at hr'
      cases hr'
      exact ⟨_, rfl, ho'⟩
    · exact ⟨r', hr', ho'⟩
  · intro k b' hk
    change (s.notifiers.set j (NPc.arrive b))[k]? = _ ∨ (s.notifiers.set j (NPc.arrive b))[k]? = _ at hk
    show ∃ r'' : Bar, (s.bars.modify b fun r => { r with taker := some j })[b']? = some r'' ∧ r''.taker = some k
    rw [hns] at hk
    rw [hget]
    split at hk
    · rename_i hkj
      rcases hk with hk | hk
      · cases hk
        exact ⟨_, if_pos rfl, by rw [hkj]⟩
      · cases hk
    · obtain ⟨r', hr', ht'⟩ := h.nots k b' hk
      split
      · rename_i he
        subst he
        rw [hr] at hr'
        cases hr'
        rw [htn] at ht'
        cases ht'
      · exact ⟨r', hr', ht'⟩
  · intro b' hb'
    show b' < (s.bars.modify b _).length
    rw [List.length_modify]
    exact h.queue b' (by rw [hq]; exact List.mem_cons_of_mem _ hb')
  · intro b' r' hb'
    change (s.bars.modify b fun r => { r with taker := some j })[b']? = some r' at hb'
    rw [hget] at hb'
    split at hb'
    · rename_i he
      subst he
      cases hb'
      have hn : (s.notifiers.set j (NPc.arrive b'))[j]? = some (.arrive b') := by rw [hns, if_pos rfl]
      refine ⟨?_, hok.cons, ?_, ?_⟩
      · show r.count = cAt s.consumers[r.owner]? b' + nAt (s.notifiers.set j (NPc.arrive b'))[j]? b'
        rw [hn, nAt_arrive]
        have := hok.count
        rw [htn] at this
        exact this
      · intro k hk _
        cases hk
        exact .inl hn
      · show some j = none ↔ b' ∈ rest
        simp [hnd.1]
    · rename_i hne
      refine (h.bars b' r' hb').setNotifier hp rfl rfl ?_ (by simp) (.inl (by simp)) ?_
      · show b' ∈ rest ↔ b' ∈ s.barriers
        rw [hq, List.mem_cons]
        simp [hne]
      · simp; exact fun e => hne e.symm
  · intro hb
    have hold := h.enough hb
    have hset := countP_set' (p := nActive s.count) (y := NPc.arrive b) hp
    have e : State.count { s with barriers := rest
                                  bars := s.bars.modify b fun r => { r with taker := some j }
                                  notifiers := s.notifiers.set j (.arrive b) } = s.count :=
      funext fun k => count_take (s := s)
    unfold weight at hold ⊢
    rw [e]
    show s.data.length ≤ s.toSpawn + (s.notifiers.set j (.arrive b)).countP (nActive s.count) +
      s.consumers.countP (cActive s.count)
    have e1 : nActive s.count NPc.popB = true := rfl
    have e2 : nActive s.count (NPc.arrive b) = true := rfl
    rw [e1, e2] at hset
    omega

theorem inv_arriveN {s : State T} (h : Inv s) {j b : Nat} (hp : s.notifiers[j]? = some (.arrive b)) :
    Inv (notifierStep s j (.arrive b)) := by
  obtain ⟨r, hr, ht⟩ := h.nots j b (.inl hp)
  have hok := h.bars b r hr
  generalize hp' : (if s.count b = 0 then NPc.waiting b else NPc.done) = p'
  have hstep : notifierStep s j (.arrive b) =
      { s with bars := arriveAt s.bars b, notifiers := s.notifiers.set j p' } := by
    rw [← hp']; rfl
  have hna : ∀ b', p' ≠ .arrive b' := by intro b'; rw [← hp']; split <;> simp
  have hns : ∀ k, (s.notifiers.set j p')[k]? = if k = j then some p' else s.notifiers[k]? := getElem?_set' hp
  have hcount := count_arrive (s := s) (s' := notifierStep s j (.arrive b)) hr rfl
  have hcnt : r.count = cAt s.consumers[r.owner]? b := by
    have := hok.count
    rw [ht] at this
    simp only [hp, nAt_arrive] at this
    omega
  have hle : r.count ≤ 1 := by
    rw [hcnt]; unfold cAt; split
    · split <;> omega
    · omega
  have hbar : ∀ (k : Nat) (r' : Bar), (arriveAt s.bars b)[k]? = some r' →
      (k = b ∧ r' = { r with count := r.count + 1 }) ∨ (k ≠ b ∧ s.bars[k]? = some r') := by
    intro k r' hk
    rw [getElem?_arriveAt] at hk
    split at hk
    · rename_i he
      subst he
      rw [hr] at hk
      simp only [Option.map_some, Option.some.injEq] at hk
      exact .inl ⟨rfl, hk.symm⟩
    · rename_i he
      exact .inr ⟨he, hk⟩
  have hget : ∀ (k : Nat) (r' : Bar), s.bars[k]? = some r' →
      ∃ r'' : Bar, (arriveAt s.bars b)[k]? = some r'' ∧ r''.owner = r'.owner ∧ r''.taker = r'.taker := by
    intro k r' hk
    rw [getElem?_arriveAt, hk]
    split
    · exact ⟨_, rfl, rfl, rfl⟩
    · exact ⟨r', rfl, rfl, rfl⟩
  rw [hstep] at hcount ⊢
  refine ⟨h.sync, ?_, ?_, h.nodup, ?_, ?_, ?_⟩
  · intro k b' hk
    obtain ⟨r', hr', ho'⟩ := h.cons k b' hk
    obtain ⟨r'', h1, h2, _⟩ := hget b' r' hr'
    exact ⟨r'', h1, h2.trans ho'⟩
  · intro k b' hk
    change (s.notifiers.set j p')[k]? = _ ∨ (s.notifiers.set j p')[k]? = _ at hk
    rw [hns] at hk
    have hold : ∃ r : Bar, s.bars[b']? = some r ∧ r.taker = some k := by
      split at hk
      · rename_i hki
        rcases hk with hk | hk
        · exact absurd (Option.some.inj hk) (hna b')
        · rw [← hp'] at hk
          split at hk
          · cases hk
            exact ⟨r, hr, by rw [ht, hki]⟩
          · cases hk
      · exact h.nots k b' hk
    obtain ⟨r', hr', ht'⟩ := hold
    obtain ⟨r'', h1, _, h2⟩ := hget b' r' hr'
    exact ⟨r'', h1, h2.trans ht'⟩
  · intro b' hb'
    show b' < (arriveAt s.bars b).length
    rw [arriveAt_length]
    exact h.queue b' hb'
  · intro b' r' hb'
    rcases hbar b' r' hb' with ⟨rfl, rfl⟩ | ⟨hne, hb''⟩
    · have hn : (s.notifiers.set j p')[j]? = some p' := by rw [hns, if_pos rfl]
      refine ⟨?_, fun hlt => hok.cons (by simp only at hlt; omega), ?_, hok.queue⟩
      · show r.count + 1 = cAt s.consumers[r.owner]? b' +
          (match r.taker with | none => 0 | some k => nAt (s.notifiers.set j p')[k]? b')
        rw [ht]
        simp only []
        rw [hn, nAt_ne (by simpa using hna b'), hcnt]
      · intro k hk hlt
        simp only at hk hlt
        rw [ht] at hk
        cases hk
        refine .inr ?_
        show (s.notifiers.set j p')[j]? = _
        rw [hn, ← hp', count_of hr, if_pos (by omega)]
    · refine (h.bars b' r' hb'').setNotifier hp rfl rfl Iff.rfl ?_ (.inl (by simp)) (hna b')
      intro hc
      cases hc
      exact hne rfl
  · intro hb
    have hold := h.enough hb
    unfold weight at hold ⊢
    have hmn : s.notifiers.countP (nActive s.count) ≤
        (s.notifiers.set j p').countP (nActive (State.count
          { s with bars := arriveAt s.bars b, notifiers := s.notifiers.set j p' })) +
          (if r.count = 0 then 0 else 1) := by
      have hset := countP_set' (p := nActive (State.count
          { s with bars := arriveAt s.bars b, notifiers := s.notifiers.set j p' })) (y := p') hp
      have hmono : s.notifiers.countP (nActive s.count) ≤ s.notifiers.countP (nActive (State.count
          { s with bars := arriveAt s.bars b, notifiers := s.notifiers.set j p' })) := by
        refine countP_mono fun p hpm => ?_
        cases p with
        | waiting b' =>
          simp only [nActive, decide_eq_true_eq, hcount]
          split
          · rename_i he
            subst he
            obtain ⟨k, hk⟩ := List.mem_iff_getElem?.mp hpm
            obtain ⟨r', hr', ht'⟩ := h.nots k b' (.inr hk)
            rw [hr] at hr'
            cases hr'
            rw [ht] at ht'
            cases ht'
            rw [hp] at hk
            cases hk
          · exact id
        | _ => exact id
      have e1 : nActive (State.count
          { s with bars := arriveAt s.bars b, notifiers := s.notifiers.set j p' }) (NPc.arrive b) = true := rfl
      rw [e1] at hset
      by_cases h0 : r.count = 0
      · have e2 : nActive (State.count
          { s with bars := arriveAt s.bars b, notifiers := s.notifiers.set j p' }) p' = true := by
          rw [← hp', count_of hr, if_pos h0]
          rw [← hp', count_of hr, if_pos h0] at hcount
          simp [nActive, hcount, h0]
        rw [e2] at hset
        rw [if_pos h0]
        omega
      · rw [if_neg h0]
        simp only [if_true] at hset
        omega
    have hmc : s.consumers.countP (cActive s.count) + (if r.count = 0 then 0 else 1) ≤
        s.consumers.countP (cActive (State.count
          { s with bars := arriveAt s.bars b, notifiers := s.notifiers.set j p' })) := by
      have hm : ∀ p ∈ s.consumers, cActive s.count p = true → cActive (State.count
          { s with bars := arriveAt s.bars b, notifiers := s.notifiers.set j p' }) p = true := by
        intro p _
        cases p with
        | waiting b' =>
          simp only [cActive, decide_eq_true_eq, hcount]
          split
          · rename_i he; subst he; rw [count_of hr]; omega
          · exact id
        | _ => exact id
      by_cases h0 : r.count = 0
      · rw [if_pos h0]; exact countP_mono hm
      · rw [if_neg h0]
        have hw : s.consumers[r.owner]? = some (.waiting b) := by
          rcases hok.cons (by omega) with h' | h'
          · rw [h', cAt_arrive] at hcnt; exact absurd hcnt h0
          · exact h'
        refine countP_gain (List.mem_of_getElem? hw) hm ?_ ?_
        · simp only [cActive, hcount, if_true, decide_eq_true_eq]; omega
        · simp only [cActive, count_of hr, decide_eq_false_iff_not]; omega
    show s.data.length ≤ s.toSpawn + (s.notifiers.set j p').countP _ + s.consumers.countP _
    omega

theorem not_blocked_of_sync {s : State T} (h : Inv s) (h0 : ¬ s.sync > 0) : ¬ ∃ q ∈ s.consumers, blocked q = true := by
  rintro ⟨q, hq, hb⟩
  have : 0 < s.consumers.countP inFlight := by
    refine List.countP_pos_iff.mpr ⟨q, hq, ?_⟩
    cases q <;> simp_all [blocked, inFlight]
  rw [← h.sync] at this
  exact h0 this

theorem inv_notifier {s : State T} (h : Inv s) (j : Nat) : Inv (step s (.notifier j)) := by
  simp only [step]
  cases hp : s.notifiers[j]? with
  | none => exact h
  | some p =>
    simp only []
    cases p with
    | check =>
      simp only [notifierStep]
      by_cases h0 : s.sync > 0
      · rw [if_pos h0]
        exact inv_setNotifier h hp (by simp) (by simp) (by simp) (by simp) (fun _ _ => rfl)
      · rw [if_neg h0]
        exact inv_setNotifier h hp (by simp) (by simp) (by simp) (by simp)
          (fun hb => absurd hb (not_blocked_of_sync h h0))
    | popB =>
      simp only [notifierStep]
      cases hq : s.barriers with
      | nil =>
        have := inv_setNotifier h hp (p' := .check) (by simp) (by simp) (by simp) (by simp) (fun _ _ => rfl)
        simpa [hq] using this
      | cons b rest => exact inv_popB h hp hq
    | arrive b => exact inv_arriveN h hp
    | waiting b =>
      simp only [notifierStep]
      split
      · exact h
      · rename_i hc
        refine inv_setNotifier h hp (by simp) (fun b' hb' => ?_) (by simp) (by simp) ?_
        · cases hb'; omega
        · intro _ ha
          simp only [nActive, decide_eq_true_eq] at ha
          exact absurd ha hc
    | done => exact h

/-- Every action other than dropping a waiting call keeps the invariant. -/
theorem inv_step {s : State T} (h : Inv s) (a : Act T) (ha : ∀ i, a ≠ .cancel i) : Inv (step s a) := by
  cases a with
  | push x => exact inv_push h x
  | spawn => exact inv_spawn h
  | notifier j => exact inv_notifier h j
  | call => exact inv_call h
  | consumer i => exact inv_consumer h i
  | cancel i => exact absurd rfl (ha i)

end Verif.BroadcastReceiver
