import Verif.Model.RldpTime
import Verif.Props.RldpQuery

/-!
# C105: an RLDP query is over in bounded time
-/
namespace Verif.Props
open Verif.Rldp

/-- The checks happen in order, at most `gap` apart; the counters never go above `S`. -/
def Observed (gap S : Nat) : Nat → List Obs → Prop
  | _, [] => True
  | last, b :: rest =>
    last ≤ b.now ∧ b.now ≤ last + gap ∧ b.seqno ≤ S ∧ b.updates ≤ S ∧ Observed gap S b.now rest

/-- Time of the last check. -/
def endTime : Nat → List Obs → Nat
  | t, [] => t
  | _, b :: rest => endTime b.now rest

/-- **C105, full statement**: a query of `parts` parts is over after the maximum timeout for each part and
for the answer (and the time between checks), whatever the peer does. -/
def C105_full : Prop :=
  ∀ (o : QueryOptions), o.min ≤ o.max → ∀ (parts gap S t0 : Nat) (r : Option Nat) (bs : List Obs),
    Observed gap S t0 bs → ((Stage.init o parts t0 r).run o bs).pending = true →
    endTime t0 bs ≤ t0 + (parts + 1) * (o.max + gap)

/-- The time a single wait can last with counters up to `S`. -/
def waitLimit (o : QueryOptions) (gap S : Nat) : Nat := (S + 1) * (o.max + o.max * S / 100 + gap)

/-- A wait in progress: its start is not too long ago, as it counts the updates. -/
private def WaitOk (o : QueryOptions) (gap S base last : Nat) (w : Wait) : Prop :=
  w.timeout ≤ o.max ∧ w.counter ≤ S ∧ base ≤ w.start ∧ w.start ≤ last ∧
  last ≤ w.start + (o.max + o.max * S / 100) ∧
  w.start ≤ base + w.counter * (o.max + o.max * S / 100 + gap)

private theorem WaitOk.limit {o : QueryOptions} {gap S base last : Nat} {w : Wait}
    (h : WaitOk o gap S base last w) : last ≤ base + waitLimit o gap S := by
  obtain ⟨_, h2, _, _, h5, h6⟩ := h
  have h1 := Nat.mul_le_mul_right (o.max + o.max * S / 100 + gap) h2
  have : waitLimit o gap S = S * (o.max + o.max * S / 100 + gap) + (o.max + o.max * S / 100 + gap) :=
    Nat.succ_mul _ _
  omega

private theorem WaitOk.step {o : QueryOptions} (ho : o.min ≤ o.max) {gap S base last now c : Nat}
    {w w' : Wait} (h : WaitOk o gap S base last w) (h1 : last ≤ now) (h2 : now ≤ last + gap) (h3 : c ≤ S)
    (e : w.check o now c = some w') : WaitOk o gap S base now w' := by
  obtain ⟨a1, a2, a3, a4, a5, a6⟩ := h
  unfold Wait.check at e
  by_cases hn : c > w.counter
  · rw [if_pos hn] at e
    cases e
    refine ⟨?_, h3, by show base ≤ now; omega, Nat.le_refl _, Nat.le_add_right _ _, ?_⟩
    · simp only [QueryOptions.updateRoundtrip]
      exact (computeTimeout_bounds o ho _).2
    · have := Nat.mul_le_mul_right (o.max + o.max * S / 100 + gap) (show w.counter + 1 ≤ c from hn)
      rw [Nat.succ_mul] at this
      show now ≤ base + c * _
      omega
  · rw [if_neg hn] at e
    by_cases hto : isTimedOut (now - w.start) w.timeout w.counter = true
    · rw [if_pos hto] at e; cases e
    · rw [if_neg hto] at e
      cases e
      refine ⟨a1, a2, a3, by omega, ?_, a6⟩
      simp only [isTimedOut, decide_eq_true_eq, Nat.not_lt] at hto
      have h1 : w.timeout * w.counter ≤ o.max * S := Nat.mul_le_mul a1 a2
      have h2 := Nat.div_le_div_right (c := 100) h1
      omega

private theorem WaitOk.fresh {o : QueryOptions} (gap S now r : Nat) (ho : o.min ≤ o.max)
    (c : Nat) (hc : c ≤ S) (r' : Option Nat) : WaitOk o gap S now now ⟨now, o.computeTimeout r', r, c⟩ :=
  ⟨(computeTimeout_bounds o ho _).2, hc, Nat.le_refl _, Nat.le_refl _, Nat.le_add_right _ _,
    Nat.le_add_right _ _⟩

/-- The waits that are over each lasted at most the limit. -/
private def StageOk (o : QueryOptions) (gap S parts t0 last : Nat) : Stage → Prop
  | .sending left w => ∃ k base, k + left + 1 = parts ∧ base ≤ t0 + k * (waitLimit o gap S + gap) ∧
      WaitOk o gap S base last w
  | .receiving w => ∃ base, base ≤ t0 + parts * (waitLimit o gap S + gap) ∧ WaitOk o gap S base last w
  | .returned _ => True

private theorem StageOk.step {o : QueryOptions} (ho : o.min ≤ o.max) {gap S parts t0 last : Nat} {s : Stage}
    (h : StageOk o gap S parts t0 last s) (b : Obs) (h1 : last ≤ b.now) (h2 : b.now ≤ last + gap)
    (h3 : b.seqno ≤ S) (h4 : b.updates ≤ S) : StageOk o gap S parts t0 b.now (s.step o b) := by
  cases s with
  | returned a => trivial
  | receiving w =>
    obtain ⟨base, hb, hw⟩ := h
    simp only [Stage.step]
    cases e : w.check o b.now b.updates with
    | none => trivial
    | some w' =>
      simp only
      split
      · trivial
      · exact ⟨base, hb, hw.step ho h1 h2 h4 e⟩
  | sending left w =>
    obtain ⟨k, base, hk, hb, hw⟩ := h
    simp only [Stage.step]
    by_cases hf : b.finished = true
    · simp only [hf, if_true]
      have hlim := hw.limit
      have hnow : b.now ≤ t0 + (k + 1) * (waitLimit o gap S + gap) := by
        rw [Nat.succ_mul]; omega
      cases left with
      | zero =>
        exact ⟨b.now, by rw [← hk]; exact hnow, WaitOk.fresh gap S b.now _ ho _ h4 _⟩
      | succ n =>
        refine ⟨k + 1, b.now, by omega, hnow, ?_⟩
        simp only [QueryOptions.updateRoundtrip]
        exact WaitOk.fresh gap S b.now _ ho 0 (Nat.zero_le _) _
    · simp only [hf]
      cases e : w.check o b.now b.seqno with
      | none => trivial
      | some w' => exact ⟨k, base, hk, hb, hw.step ho h1 h2 h3 e⟩

private theorem StageOk.run {o : QueryOptions} (ho : o.min ≤ o.max) {gap S parts t0 : Nat} (bs : List Obs) :
    ∀ (last : Nat) (s : Stage), StageOk o gap S parts t0 last s → Observed gap S last bs →
      StageOk o gap S parts t0 (endTime last bs) (s.run o bs) := by
  induction bs with
  | nil => intro last s h _; exact h
  | cons b bs ih =>
    intro last s h hb
    obtain ⟨h1, h2, h3, h4, h5⟩ := hb
    exact ih b.now _ (h.step ho b h1 h2 h3 h4) h5

private theorem StageOk.init {o : QueryOptions} (ho : o.min ≤ o.max) (gap S parts t0 : Nat) (r : Option Nat) :
    StageOk o gap S parts t0 t0 (Stage.init o parts t0 r) := by
  cases parts with
  | zero => exact ⟨t0, by simp, WaitOk.fresh gap S t0 _ ho 0 (Nat.zero_le _) _⟩
  | succ n => exact ⟨0, t0, by omega, by simp, WaitOk.fresh gap S t0 _ ho 0 (Nat.zero_le _) _⟩

/-- If the counters stay at or below `S` - the peer sent at most that many messages - a query that is not
over was started at most `(parts + 1) * ((S + 1) * (max + max * S / 100 + gap) + gap)` ago. -/
theorem C105_over_partial (o : QueryOptions) (ho : o.min ≤ o.max) (parts gap S t0 : Nat) (r : Option Nat)
    (bs : List Obs) (hb : Observed gap S t0 bs)
    (hp : ((Stage.init o parts t0 r).run o bs).pending = true) :
    endTime t0 bs ≤ t0 + (parts + 1) * ((S + 1) * (o.max + o.max * S / 100 + gap) + gap) := by
  have h := StageOk.run ho bs t0 _ (StageOk.init ho gap S parts t0 r) hb
  have he : (S + 1) * (o.max + o.max * S / 100 + gap) = waitLimit o gap S := rfl
  rw [he]
  have hm : ∀ k, k ≤ parts → k * (waitLimit o gap S + gap) + waitLimit o gap S ≤
      (parts + 1) * (waitLimit o gap S + gap) := by
    intro k hk
    have := Nat.mul_le_mul_right (waitLimit o gap S + gap) hk
    rw [Nat.succ_mul]; omega
  revert hp h
  cases (Stage.init o parts t0 r).run o bs with
  | returned a => intro hp; cases hp
  | receiving w =>
    rintro - ⟨base, hb, hw⟩
    have := hw.limit; have := hm parts (Nat.le_refl _); omega
  | sending left w =>
    rintro - ⟨k, base, hk, hb, hw⟩
    have := hw.limit; have := hm k (by omega); omega

/-- A peer that is silent from the start - neither confirmations nor an answer: the query is over after the
maximum timeout. -/
theorem C105_silent_partial (o : QueryOptions) (ho : o.min ≤ o.max) (parts gap t0 : Nat) (r : Option Nat)
    (bs : List Obs) (hb : Observed gap 0 t0 bs) (hf : ∀ b ∈ bs, b.finished = false)
    (hp : ((Stage.init o parts t0 r).run o bs).pending = true) : endTime t0 bs ≤ t0 + o.max := by
  suffices H : ∀ (bs : List Obs) (last : Nat) (s : Stage), Observed gap 0 last bs →
      (∀ b ∈ bs, b.finished = false) → last ≤ t0 + o.max → t0 ≤ last →
      (∃ w, w.timeout ≤ o.max ∧ w.counter = 0 ∧ w.start = t0 ∧
        ((∃ n, s = .sending n w) ∨ s = .receiving w)) →
      (s.run o bs).pending = true → endTime last bs ≤ t0 + o.max by
    refine H bs t0 _ hb hf (Nat.le_add_right _ _) (Nat.le_refl _) ?_ hp
    cases parts with
    | zero => exact ⟨_, (computeTimeout_bounds o ho (some (r.getD 0))).2, rfl, rfl, .inr rfl⟩
    | succ n => exact ⟨_, (computeTimeout_bounds o ho r).2, rfl, rfl, .inl ⟨n, rfl⟩⟩
  intro bs
  induction bs with
  | nil => intro last s _ _ hl _ _ _; exact hl
  | cons b bs ih =>
    rintro last s ⟨h1, h2, h3, h4, h5⟩ hf hl h0 ⟨w, w1, w2, w3, hs⟩ hp
    have hfb := hf b (by simp)
    have hret : ∀ bs a, Stage.run o (.returned a) bs = .returned a := by
      intro bs a
      induction bs with
      | nil => rfl
      | cons b bs ih => exact ih
    have key : ∀ c, c ≤ 0 → w.check o b.now c = none ∨ (w.check o b.now c = some w ∧ b.now ≤ t0 + o.max) := by
      intro c hc
      unfold Wait.check
      rw [if_neg (by omega)]
      by_cases ht : isTimedOut (b.now - w.start) w.timeout w.counter = true
      · rw [if_pos ht]; exact .inl rfl
      · rw [if_neg ht]
        refine .inr ⟨rfl, ?_⟩
        simp only [isTimedOut, decide_eq_true_eq, Nat.not_lt, w2, Nat.mul_zero, Nat.zero_div] at ht
        omega
    have hp' : ((s.step o b).run o bs).pending = true := hp
    rcases hs with ⟨n, rfl⟩ | rfl
    · rcases key b.seqno h3 with e | ⟨e, hle⟩
      · simp only [Stage.step, hfb, e] at hp'
        rw [if_neg (by decide), hret] at hp'; cases hp'
      · have hstep : Stage.step o (.sending n w) b = .sending n w := by
          simp only [Stage.step, hfb, e]; rfl
        rw [hstep] at hp'
        exact ih b.now _ h5 (fun x hx => hf x (by simp [hx])) hle (by omega)
          ⟨w, w1, w2, w3, .inl ⟨n, rfl⟩⟩ hp'
    · rcases key b.updates h4 with e | ⟨e, hle⟩
      · simp only [Stage.step, e] at hp'
        rw [hret] at hp'; cases hp'
      · have hstep : Stage.step o (.receiving w) b = .receiving w := by
          simp only [Stage.step, hfb, e]; rfl
        rw [hstep] at hp'
        exact ih b.now _ h5 (fun x hx => hf x (by simp [hx])) hle (by omega)
          ⟨w, w1, w2, w3, .inr rfl⟩ hp'

/-- The checks of a slow peer: a check every `gap`, a confirmation of one more packet every `m` checks,
never the completion. `n` is the number of checks that follow check `j`. -/
def slowPeer (gap m t0 : Nat) : Nat → Nat → List Obs
  | _, 0 => []
  | j, n + 1 => ⟨t0 + (j + 1) * gap, (j + 1) / m, 0, false⟩ :: slowPeer gap m t0 (j + 1) n

theorem slowPeer_observed (gap m t0 : Nat) (S : Nat) : ∀ (n j : Nat), (j + n) / m ≤ S →
    Observed gap S (t0 + j * gap) (slowPeer gap m t0 j n) := by
  intro n
  induction n with
  | zero => intro j _; trivial
  | succ n ih =>
    intro j hj
    have e : (j + 1) * gap = j * gap + gap := Nat.succ_mul _ _
    refine ⟨by simp only; omega, by simp only; omega, ?_, Nat.zero_le _, ?_⟩
    · exact Nat.le_trans (Nat.div_le_div_right (by omega)) hj
    · exact ih (j + 1) (by rw [show j + 1 + n = j + (n + 1) by omega]; exact hj)

theorem slowPeer_end (gap m t0 : Nat) : ∀ (n j : Nat),
    endTime (t0 + j * gap) (slowPeer gap m t0 j n) = t0 + (j + n) * gap := by
  intro n
  induction n with
  | zero => intro j; rfl
  | succ n ih =>
    intro j
    simp only [slowPeer, endTime]
    rw [ih (j + 1), show j + 1 + n = j + (n + 1) by omega]

/-- A peer decides how long a query lasts: with one confirmation every `m * gap` (at most the minimum
timeout), `n` confirmations keep it from returning for `n * m * gap`, for every `n`. -/
theorem C105_held_open (o : QueryOptions) (ho : o.min ≤ o.max) (parts gap m n t0 : Nat) (r : Option Nat)
    (hm : 0 < m) (hgap : m * gap ≤ o.min) :
    ∃ bs, Observed gap n t0 bs ∧ endTime t0 bs = t0 + n * m * gap ∧
      ((Stage.init o (parts + 1) t0 r).run o bs).pending = true := by
  refine ⟨slowPeer gap m t0 0 (n * m), ?_, ?_, ?_⟩
  · have := slowPeer_observed gap m t0 n (n * m) 0 (by
      rw [Nat.zero_add, Nat.mul_div_cancel _ hm]; exact Nat.le_refl _)
    simpa using this
  · have := slowPeer_end gap m t0 (n * m) 0
    simpa using this
  · suffices H : ∀ (k j : Nat) (w : Wait), o.min ≤ w.timeout → w.counter = j / m →
        w.start = t0 + (j / m) * m * gap →
        ((Stage.sending parts w).run o (slowPeer gap m t0 j k)).pending = true by
      refine H (n * m) 0 _ (computeTimeout_bounds o ho r).1 (by simp) ?_
      simp
    intro k
    induction k with
    | zero => intro j w _ _ _; rfl
    | succ k ih =>
      intro j w h1 h2 h3
      show ((Stage.step o (.sending parts w) ⟨t0 + (j + 1) * gap, (j + 1) / m, 0, false⟩).run o
        (slowPeer gap m t0 (j + 1) k)).pending = true
      by_cases hd : (j + 1) / m > j / m
      · have hc : w.check o (t0 + (j + 1) * gap) ((j + 1) / m) =
            some ⟨t0 + (j + 1) * gap, (o.updateRoundtrip w.roundtrip (t0 + (j + 1) * gap - w.start)).2,
              (o.updateRoundtrip w.roundtrip (t0 + (j + 1) * gap - w.start)).1, (j + 1) / m⟩ := by
          unfold Wait.check
          rw [if_pos (by omega)]
        simp only [Stage.step, hc]
        refine ih (j + 1) _ ?_ rfl ?_
        · simp only [QueryOptions.updateRoundtrip]
          exact (computeTimeout_bounds o ho _).1
        · have hmod : (j + 1) % m = 0 := by
            have e1 := Nat.div_add_mod (j + 1) m
            have e2 := Nat.div_add_mod j m
            have e3 := Nat.mod_lt j hm
            have e4 := Nat.mul_le_mul_left m (show j / m + 1 ≤ (j + 1) / m from hd)
            rw [Nat.mul_add, Nat.mul_one] at e4
            omega
          show t0 + (j + 1) * gap = t0 + (j + 1) / m * m * gap
          rw [Nat.div_mul_cancel (Nat.dvd_of_mod_eq_zero hmod)]
      · have hle := Nat.div_le_div_right (c := m) (Nat.le_succ j)
        have heq : (j + 1) / m = j / m := by
          have : j / m ≤ (j + 1) / m := hle
          omega
        have hel : t0 + (j + 1) * gap - w.start ≤ w.timeout := by
          have hlt : j + 1 ≤ (j / m) * m + m := by
            have e1 := Nat.div_add_mod (j + 1) m
            have e2 := Nat.mod_lt (j + 1) hm
            rw [heq, Nat.mul_comm] at e1
            omega
          have h4 := Nat.mul_le_mul_right gap hlt
          rw [Nat.add_mul (j / m * m)] at h4
          rw [h3]
          omega
        have hc : w.check o (t0 + (j + 1) * gap) ((j + 1) / m) = some w := by
          unfold Wait.check
          rw [if_neg (by omega), if_neg]
          simp only [isTimedOut, decide_eq_true_eq, Nat.not_lt]
          omega
        simp only [Stage.step, hc]
        exact ih (j + 1) w h1 (by rw [h2, heq]) (by rw [h3, heq])

/-- The full statement is false: with the default timeouts (500 ms and 10 s, checks every 10 ms) a peer
that confirms one packet every 500 ms keeps a query open for an hour. -/
theorem C105_full_false : ¬ C105_full := by
  intro h
  obtain ⟨bs, h1, h2, h3⟩ := C105_held_open ⟨500, 10000⟩ (by decide) 0 10 50 7200 0 none (by decide) (by decide)
  have := h ⟨500, 10000⟩ (by decide) 1 10 7200 0 none bs h1 h3
  rw [h2] at this
  exact absurd this (by decide)

/-- A query of two parts that is answered: the bound of `C105_over_partial` is about the runs before. -/
example : ∃ w, (Stage.init ⟨500, 10000⟩ 2 0 none).run ⟨500, 10000⟩
    [⟨10, 3, 0, false⟩, ⟨20, 5, 0, true⟩, ⟨30, 2, 0, true⟩, ⟨40, 2, 1, false⟩] = .receiving w ∧
    Observed 10 5 0 [⟨10, 3, 0, false⟩, ⟨20, 5, 0, true⟩, ⟨30, 2, 0, true⟩, ⟨40, 2, 1, false⟩] := by
  refine ⟨_, rfl, by simp [Observed]⟩

-- C105_over_partial, C105_silent_partial, C105_held_open
example := C105_over_partial ⟨500, 10000⟩ (by decide) 2 10 5 0 none
  [⟨10, 3, 0, false⟩, ⟨20, 5, 0, true⟩, ⟨30, 2, 0, true⟩, ⟨40, 2, 1, false⟩] (by simp [Observed]) rfl
example := C105_silent_partial ⟨500, 10000⟩ (by decide) 2 10 0 none [⟨10, 0, 0, false⟩, ⟨20, 0, 0, false⟩]
  (by simp [Observed]) (by simp) rfl
example := C105_held_open ⟨500, 10000⟩ (by decide) 2 10 50 1000 0 none (by decide) (by decide)

end Verif.Props
