import Verif.Props.ReceiveConc

/-!
# C133: what a newer date does
-/
namespace Verif.ReceiveConc
open Verif.PacketsHistory

/-- A task alone: `n` steps. -/
def go (k : Task) : Nat → Sys × Pc → Sys × Pc
  | 0, x => x
  | n + 1, x => go k n (stepOf x.1 k x.2)

theorem go_add (k : Task) (m : Nat) : ∀ (n : Nat) (x : Sys × Pc), go k (n + m) x = go k m (go k n x) := by
  intro n
  induction n with
  | zero => intro x; simp [go]
  | succ n ih => intro x; rw [Nat.succ_add]; exact ih _

theorem stepOf_ignores (σ : Sys) (k : Task) (f : Nat → Pc) (pc : Pc) :
    (stepOf { σ with pc := f } k pc).2 = (stepOf σ k pc).2 ∧
    (stepOf { σ with pc := f } k pc).1 = { (stepOf σ k pc).1 with pc := f } := by
  cases pc with
  | start => simp only [stepOf]; split <;> exact ⟨rfl, rfl⟩
  | loaded old =>
    simp only [stepOf]
    split
    · exact ⟨rfl, rfl⟩
    · split
      · exact ⟨rfl, rfl⟩
      · split <;> exact ⟨rfl, rfl⟩
  | lockLoad q => exact ⟨rfl, rfl⟩
  | lockCas q i => simp only [stepOf]; split <;> exact ⟨rfl, rfl⟩
  | word q i => exact ⟨rfl, rfl⟩
  | seqno q => exact ⟨rfl, rfl⟩
  | unlock q => refine ⟨rfl, ?_⟩; simp only [stepOf]; split <;> rfl
  | deliver pc => exact ⟨rfl, rfl⟩
  | refused => exact ⟨rfl, rfl⟩

theorem go_ignores (k : Task) (f : Nat → Pc) : ∀ (n : Nat) (σ : Sys) (pc : Pc),
    (go k n ({ σ with pc := f }, pc)).2 = (go k n (σ, pc)).2 ∧
    (go k n ({ σ with pc := f }, pc)).1 = { (go k n (σ, pc)).1 with pc := f } := by
  intro n
  induction n with
  | zero => intro σ pc; exact ⟨rfl, rfl⟩
  | succ n ih =>
    intro σ pc
    obtain ⟨h2, h1⟩ := stepOf_ignores σ k f pc
    have e : stepOf { σ with pc := f } k pc = ({ (stepOf σ k pc).1 with pc := f }, (stepOf σ k pc).2) :=
      Prod.ext h1 h2
    show (go k n (stepOf { σ with pc := f } k pc)).2 = (go k n (stepOf σ k pc)).2 ∧
      (go k n (stepOf { σ with pc := f } k pc)).1 = { (go k n (stepOf σ k pc)).1 with pc := f }
    rw [e]
    exact ih _ _

theorem run_alone (tasks : Nat → Task) (t : Nat) : ∀ (n : Nat) (σ : Sys),
    (σ.run tasks (List.replicate n t)).pc t = (go (tasks t) n (σ, σ.pc t)).2 ∧
    (σ.run tasks (List.replicate n t)).hist = (go (tasks t) n (σ, σ.pc t)).1.hist ∧
    (σ.run tasks (List.replicate n t)).date = (go (tasks t) n (σ, σ.pc t)).1.date := by
  intro n
  induction n with
  | zero => intro σ; exact ⟨rfl, rfl, rfl⟩
  | succ n ih =>
    intro σ
    have := ih (σ.step tasks t)
    have hpt : (σ.step tasks t).pc t = (stepOf σ (tasks t) (σ.pc t)).2 := by simp [Sys.step]
    rw [hpt] at this
    obtain ⟨g2, g1⟩ := go_ignores (tasks t) (σ.step tasks t).pc n (stepOf σ (tasks t) (σ.pc t)).1
      (stepOf σ (tasks t) (σ.pc t)).2
    have e : (σ.step tasks t) = { (stepOf σ (tasks t) (σ.pc t)).1 with pc := (σ.step tasks t).pc } := rfl
    rw [← e] at g2 g1
    rw [g2, g1] at this
    exact this

/-- The reset of one history by a task that is alone. -/
theorem go_reset (k : Task) (σ : Sys) (p : Bool) (h0 : (σ.hist p).index = 0) :
    (go k 12 (σ, .lockLoad p)).2 = (if p then afterDate k else .lockLoad true) ∧
    (go k 12 (σ, .lockLoad p)).1.date = σ.date ∧
    ((go k 12 (σ, .lockLoad p)).1.hist p).index = 0 ∧
    ((go k 12 (σ, .lockLoad p)).1.hist p).seqno = 0 ∧
    (∀ j < 8, ((go k 12 (σ, .lockLoad p)).1.hist p).bits j = if j = 4 then 1 else 0) ∧
    (go k 12 (σ, .lockLoad p)).1.hist (!p) = σ.hist (!p) := by
  have hne : (0 : Nat) ≠ inTransit := by decide
  have hne' : ¬ (!p) = p := by cases p <;> decide
  refine ⟨?_, ?_, ?_, ?_, ?_, ?_⟩
  · simp [go, stepOf, h0, hne, Sys.setHist]
  · simp [go, stepOf, h0, hne, Sys.setHist]
  · simp [go, stepOf, h0, hne, Sys.setHist]
  · simp [go, stepOf, h0, hne, Sys.setHist]
  · intro j hj
    have : j = 0 ∨ j = 1 ∨ j = 2 ∨ j = 3 ∨ j = 4 ∨ j = 5 ∨ j = 6 ∨ j = 7 := by omega
    rcases this with rfl | rfl | rfl | rfl | rfl | rfl | rfl | rfl <;>
      simp [go, stepOf, h0, hne, Sys.setHist]
  · simp [go, stepOf, h0, hne, Sys.setHist]

/-- Looking up a number that is not in an unlocked history. -/
theorem go_deliver (k : Task) (hs : k.seqno < 256) (σ : Sys)
    (h0 : (σ.hist k.priority).index = 0)
    (hb : bitOf (σ.hist k.priority) k.seqno = false) :
    (go k 8 (σ, .deliver .load)).2 = .deliver (.done true) ∧
    (go k 8 (σ, .deliver .load)).1.date = σ.date ∧
    ((go k 8 (σ, .deliver .load)).1.hist k.priority).index = 0 ∧
    (∀ n < 256, bitOf ((go k 8 (σ, .deliver .load)).1.hist k.priority) n =
      (bitOf (σ.hist k.priority) n || decide (k.seqno = n))) ∧
    (go k 8 (σ, .deliver .load)).1.hist (!k.priority) = σ.hist (!k.priority) := by
  have hne : (0 : Nat) ≠ inTransit := by decide
  have e1 : k.seqno % 256 = k.seqno := Nat.mod_eq_of_lt hs
  have hw := wordOf_zero k.seqno hs
  have hbit : ((σ.hist k.priority).bits (4 + k.seqno / 64) &&& 1 <<< (k.seqno % 64) ≠ 0) = False := by
    rw [and_shift_ne_zero]
    simpa [bitOf] using hb
  have hor := fun n (hn : n < 256) => bitOf_or (σ.hist k.priority) k.seqno n _ hs hn hw
  have hne' : ¬ (!k.priority) = k.priority := by cases k.priority <;> decide
  by_cases hq : (σ.hist k.priority).seqno < k.seqno
  · refine ⟨?_, ?_, ?_, ?_, ?_⟩
    · simp [go, stepOf, stepPC, h0, hne, Sys.setHist, half, e1, hw, hbit, hq]
    · simp [go, stepOf, stepPC, h0, hne, Sys.setHist, half, e1, hw, hbit, hq]
    · simp [go, stepOf, stepPC, h0, hne, Sys.setHist, half, e1, hw, hbit, hq]
    · intro n hn
      rw [← hor n hn]
      simp [go, stepOf, stepPC, h0, hne, Sys.setHist, half, e1, hw, hbit, hq, bitOf]
    · simp [go, stepOf, stepPC, h0, hne, hne', Sys.setHist, half, e1, hw, hbit, hq]
  · refine ⟨?_, ?_, ?_, ?_, ?_⟩
    · simp [go, stepOf, stepPC, h0, hne, Sys.setHist, half, e1, hw, hbit, hq]
    · simp [go, stepOf, stepPC, h0, hne, Sys.setHist, half, e1, hw, hbit, hq]
    · simp [go, stepOf, stepPC, h0, hne, Sys.setHist, half, e1, hw, hbit, hq]
    · intro n hn
      rw [← hor n hn]
      simp [go, stepOf, stepPC, h0, hne, Sys.setHist, half, e1, hw, hbit, hq, bitOf]
    · simp [go, stepOf, stepPC, h0, hne, hne', Sys.setHist, half, e1, hw, hbit, hq]

/-- A task whose packet has no date or the known one. -/
theorem go_same_date (k : Task) (σ : Sys)
    (hd : k.date = none ∨ (k.date = some σ.date ∧ k.stale = false)) :
    ∃ n, n ≤ 2 ∧ go k n (σ, .start) = (σ, .deliver .load) := by
  rcases hd with hd | ⟨hd, hst⟩
  · exact ⟨1, by omega, by simp [go, stepOf, hd]⟩
  · exact ⟨2, by omega, by simp [go, stepOf, hd, afterDate, hst]⟩

theorem go_done (k : Task) (r : Bool) : ∀ (n : Nat) (σ : Sys),
    (go k n (σ, .deliver (.done r))).2 = .deliver (.done r) ∧
    (go k n (σ, .deliver (.done r))).1.date = σ.date ∧
    (go k n (σ, .deliver (.done r))).1.hist = σ.hist := by
  intro n
  induction n with
  | zero => intro σ; exact ⟨rfl, rfl, rfl⟩
  | succ n ih =>
    intro σ
    have e : stepOf σ k (.deliver (.done r)) =
        (σ.setHist k.priority (σ.hist k.priority), .deliver (.done r)) := rfl
    have h : (σ.setHist k.priority (σ.hist k.priority)).hist = σ.hist := by
      funext q; simp only [Sys.setHist]; split <;> simp_all
    show (go k n (stepOf σ k (.deliver (.done r)))).2 = _ ∧ _
    simp only [go]
    rw [e]
    obtain ⟨h1, h2, h3⟩ := ih (σ.setHist k.priority (σ.hist k.priority))
    exact ⟨h1, h2, h3.trans h⟩

/-- A restart is taken notice of: a packet with a newer date than the known one, handled while nobody
else uses the peer, is accepted whatever the old session had received, the new date is known, and
afterwards every packet of the new session with another number (above 0, below 256), of either
priority, is accepted, with the new date or without. -/
theorem C133_new_session (tasks : Nat → Task) (σ : Sys) (t d : Nat)
    (hfree : ∀ p, (σ.hist p).index = 0) (ht : σ.pc t = .start) (hd : (tasks t).date = some d)
    (hknown : σ.date ≠ 0) (hnew : σ.date < d) (hst : (tasks t).stale = false)
    (hpos : 0 < (tasks t).seqno) (hsm : (tasks t).seqno < 256) :
    (σ.run tasks (List.replicate 34 t)).accepted t ∧
    (σ.run tasks (List.replicate 34 t)).date = d ∧
    ∀ u, u ≠ t → σ.pc u = .start →
      ((tasks u).date = none ∨ ((tasks u).date = some d ∧ (tasks u).stale = false)) →
      0 < (tasks u).seqno → (tasks u).seqno < 256 →
      ((tasks u).priority, (tasks u).seqno) ≠ ((tasks t).priority, (tasks t).seqno) →
      ((σ.run tasks (List.replicate 34 t)).run tasks (List.replicate 10 u)).accepted u := by
  obtain ⟨r1, r2, r3⟩ := run_alone tasks t 34 σ
  have e2 : go (tasks t) 2 (σ, .start) = ({ σ with date := d }, .lockLoad false) := by
    have : ¬ d = σ.date := by omega
    simp [go, stepOf, hd, this, hnew, hknown]
  have hsplit : go (tasks t) 34 (σ, .start) =
      go (tasks t) 8 (go (tasks t) 12 (go (tasks t) 12 ({ σ with date := d }, .lockLoad false))) := by
    rw [show 34 = 2 + (12 + (12 + 8)) by rfl, go_add, e2, go_add, go_add]
  obtain ⟨a1, a2, a3, a4, a5, a6⟩ := go_reset (tasks t) { σ with date := d } false (hfree false)
  generalize hx : go (tasks t) 12 ({ σ with date := d }, .lockLoad false) = x at *
  obtain ⟨σ1, pc1⟩ := x
  simp only [Bool.not_false, Bool.false_eq_true, if_false] at a1 a2 a3 a4 a5 a6
  subst a1
  obtain ⟨b1, b2, b3, b4, b5, b6⟩ := go_reset (tasks t) σ1 true (by rw [a6]; exact hfree true)
  generalize hy : go (tasks t) 12 (σ1, .lockLoad true) = y at *
  obtain ⟨σ2, pc2⟩ := y
  simp only [Bool.not_true, if_true] at b1 b2 b3 b4 b5 b6
  subst b1
  have hbits : ∀ p, (σ2.hist p).index = 0 ∧ ∀ j < 8, (σ2.hist p).bits j = if j = 4 then 1 else 0 := by
    intro p
    cases p
    · rw [b6]; exact ⟨a3, a5⟩
    · exact ⟨b3, b5⟩
  have hempty : ∀ p n, 0 < n → n < 256 → bitOf (σ2.hist p) n = false := by
    intro p n h0 hn
    simp only [bitOf]
    rw [(hbits p).2 _ (by omega)]
    split
    · have : n % 64 = n := Nat.mod_eq_of_lt (by omega)
      rw [this]
      rw [Nat.testBit_one_eq_true_iff_self_eq_zero.not.mpr (by omega) |> Bool.eq_false_iff.mpr]
    · simp
  have hload : afterDate (tasks t) = .deliver .load := by simp [afterDate, hst]
  rw [hload] at hsplit
  obtain ⟨c1, c2, c3, c4, c5⟩ := go_deliver (tasks t) hsm σ2 (hbits _).1 (hempty _ _ hpos hsm)
  rw [ht, hsplit] at r1 r2 r3
  generalize hz : go (tasks t) 8 (σ2, .deliver .load) = z at *
  obtain ⟨σ3, pc3⟩ := z
  simp only at c1 c2 c3 c4 c5 r1 r2 r3 a2 b2
  have hdate : (σ.run tasks (List.replicate 34 t)).date = d := by rw [r3, c2, b2, a2]
  refine ⟨by rw [Sys.accepted, r1, c1], hdate, ?_⟩
  intro u hu hus hud hu0 hu256 hother
  generalize hτ : σ.run tasks (List.replicate 34 t) = τ at *
  have hτu : τ.pc u = .start := by
    rw [← hτ, run_untouched _ _ _ _ (by simp [hu])]; exact hus
  obtain ⟨s1, -, -⟩ := run_alone tasks u 10 τ
  obtain ⟨n, hn, hgo⟩ := go_same_date (tasks u) τ (by rw [hdate]; exact hud)
  have hidx : (τ.hist (tasks u).priority).index = 0 := by
    rw [r2]
    by_cases hp : (tasks u).priority = (tasks t).priority
    · rw [hp]; exact c3
    · rw [show (tasks u).priority = !(tasks t).priority by
        revert hp; cases (tasks u).priority <;> cases (tasks t).priority <;> simp, c5]
      exact (hbits _).1
  have hnot : bitOf (τ.hist (tasks u).priority) (tasks u).seqno = false := by
    rw [r2]
    by_cases hp : (tasks u).priority = (tasks t).priority
    · rw [hp, c4 _ hu256, hempty _ _ hu0 hu256]
      have : ¬ (tasks t).seqno = (tasks u).seqno := by
        intro h; exact hother (by rw [hp, h])
      simp [this]
    · rw [show (tasks u).priority = !(tasks t).priority by
        revert hp; cases (tasks u).priority <;> cases (tasks t).priority <;> simp, c5]
      exact hempty _ _ hu0 hu256
  obtain ⟨g1, -⟩ := go_deliver (tasks u) hu256 τ hidx hnot
  rw [hτu, show 10 = n + (8 + (2 - n)) by omega, go_add, hgo, go_add] at s1
  generalize go (tasks u) 8 (τ, .deliver .load) = w at g1 s1
  obtain ⟨τ', pc'⟩ := w
  simp only at g1
  subst g1
  rw [(go_done (tasks u) true _ τ').1] at s1
  rw [show n + (8 + (2 - n)) = 10 by omega] at s1
  exact s1

/-- Non-vacuity: a peer known with date 5 whose packet 1 was received before is restarted. -/
example : ((((Sys.init 5).run restarted (List.replicate 34 0)).run restarted
    (List.replicate 10 1))).accepted 1 :=
  (C133_new_session restarted (Sys.init 5) 0 10 (fun _ => rfl) rfl rfl (by decide) (by decide) rfl
    (by decide) (by decide)).2.2 1 (by decide) rfl (.inr ⟨rfl, rfl⟩) (by decide) (by decide) (by decide)

/-- A packet that names an old start of ours is not accepted, whatever else happens. -/
theorem C133_old_destination (tasks : Nat → Task) (date : Nat) (sched : List Nat) (t : Nat)
    (hd : (tasks t).date ≠ none) (hst : (tasks t).stale = true) :
    ¬ ((Sys.init date).run tasks sched).accepted t := by
  have hafter : afterDate (tasks t) = .refused := by simp [afterDate, hst]
  have key : ∀ (sched : List Nat) (σ : Sys), (∀ pc, σ.pc t ≠ .deliver pc) →
      ∀ pc, (σ.run tasks sched).pc t ≠ .deliver pc := by
    intro sched
    induction sched with
    | nil => exact fun σ h => h
    | cons u us ih =>
      intro σ h
      refine ih (σ.step tasks u) ?_
      intro pc
      simp only [Sys.step]
      split
      · rename_i e
        subst e
        cases hpc : σ.pc t with
        | deliver q => exact absurd hpc (h q)
        | start =>
          simp only [stepOf]
          split
          · rename_i hn; exact absurd hn hd
          · simp
        | loaded old =>
          simp only [stepOf]
          split
          · rename_i hn; exact absurd hn hd
          · split
            · rw [hafter]; simp
            · split
              · split
                · simp
                · rw [hafter]; simp
              · simp
        | lockLoad q => simp only [stepOf]; split <;> simp
        | lockCas q i => simp only [stepOf]; split <;> simp
        | word q i => simp only [stepOf]; split <;> simp
        | seqno q => simp [stepOf]
        | unlock q =>
          cases q
          · simp [stepOf]
          · simp only [stepOf, if_true]; rw [hafter]; simp
        | refused => simp [stepOf]
      · exact h pc
  exact key sched _ (by intro pc; simp [Sys.init]) _

example : ¬ ((Sys.init 5).run (fun _ => ⟨some 10, true, 1, false⟩) (List.replicate 50 0)).accepted 0 :=
  C133_old_destination _ _ _ _ (by simp) rfl

end Verif.ReceiveConc
