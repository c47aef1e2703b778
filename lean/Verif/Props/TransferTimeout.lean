import Verif.Proofs.TransferTimeout

/-!
# C67: incomplete multipart messages are given up after the timeout, and only then

`src/adnl/node/receiver.rs:188-256`, `src/util/updated_at.rs`. Any number of tasks handle parts and any
number of timeout tasks run; an execution is any list of actions.

* `C67_given_up`: in every reachable state the last part of every transfer in the table arrived at most two
  timeouts (and two scheduling delays) ago, so no transfer is kept for ever; `C67_time_passes` shows that the
  model never stops the clock, so that this bound is not empty.
* `C67_full`: a timeout task removes a transfer only if no part of it arrived for the whole timeout. It is
  false for two reasons: the task of an older transfer with the same hash removes the newer one
  (`C67_full_false`, and a message is lost although its parts arrive within the timeout,
  `C67_message_lost`), and times are rounded down to whole seconds (`C67_rounding`).
* `C67_own_partial`: a transfer removed by its own task was idle for more than the timeout less a second.
* `C67_foreign_partial`: otherwise the task belongs to an older transfer with the same hash, which is not in
  the table any more.
* `C67_distinct_partial`: when no hash comes twice only idle transfers are removed.
-/
namespace Verif.Props.TransferTimeout
open Verif.Transfer Verif.TransferTimeout

/-- The whole claim: whenever the task of some transfer removes transfer `i` from the table, the last part of
`i` arrived at least the timeout ago. -/
def C67_full : Prop :=
  ∀ (sha : Bytes → Bytes) (c : Cfg) (as : List Act) (j : Nat) (h : Bytes) (i : Nat) (o : Obj),
    (run sha c .init as).table.get h = some i → (run sha c .init as).objs i = some o →
    (step sha c (run sha c .init as) (.timer j)).table.get h = none →
    o.lastPart + c.timeout * 1000 ≤ (run sha c .init as).now

/-! ## The task of a finished transfer -/

/-- `t` handles the part from the beginning to the end. -/
def whole (t : Nat) (p : Part) : List Act := [.lookup t p, .handle t, .handle t, .handle t]

/-- A message, standing for its own hash, in two parts. -/
def msg : Bytes := [1, 2, 3, 4]
def part1 : Part := ⟨msg, 4, 0, [1, 2]⟩
def part2 : Part := ⟨msg, 4, 2, [3, 4]⟩

/-- Three seconds, as by default (adnl/node/mod.rs:100), and no delays. -/
def cfg : Cfg := ⟨3, 0⟩

/-- The message arrives, and after 2.9 seconds its first part arrives again. -/
def again : List Act :=
  whole 0 part1 ++ whole 0 part2 ++ [.timer 0, .tick 2900] ++ whole 0 part1 ++ [.timer 1, .tick 100]

theorem C67_full_false : ¬ C67_full := by
  intro h
  have := h id cfg again 0 msg 1 _ (by decide +kernel) (show _ = some _ from rfl) (by decide +kernel)
  revert this
  decide +kernel

/-- The second copy of the message is not delivered: its two parts arrive within 100 milliseconds of each
other, but the task of the first copy runs in between. Without it the copy is delivered. -/
theorem C67_message_lost :
    (run id cfg .init (again ++ [.timer 0] ++ whole 0 part2)).delivered = [msg] ∧
      (run id cfg .init (again ++ whole 0 part2)).delivered = [msg, msg] := by
  decide +kernel

/-! ## Rounding -/

/-- A transfer is given up one millisecond after its last part, by its own task, with a timeout of a
second. -/
theorem C67_rounding :
    ∃ (as : List Act) (o : Obj), (run id ⟨1, 0⟩ .init as).table.get msg = some 0 ∧
      (run id ⟨1, 0⟩ .init as).objs 0 = some o ∧
      (step id ⟨1, 0⟩ (run id ⟨1, 0⟩ .init as) (.timer 0)).table.get msg = none ∧
      (run id ⟨1, 0⟩ .init as).now = o.lastPart + 1 :=
  ⟨[.lookup 0 part1, .timer 0, .tick 999, .handle 0, .handle 0, .tick 1], _, by decide +kernel,
    show _ = some _ from rfl, by decide +kernel, by decide +kernel⟩

/-! ## What holds -/

/-- What is erased by a timer. -/
theorem timer_removes {sha : Bytes → Bytes} {c : Cfg} {s : State} {j : Nat} {h : Bytes} {i : Nat}
    (hs : s.table.get h = some i) (hr : (step sha c s (.timer j)).table.get h = none) :
    ∃ oj, s.objs j = some oj ∧ oj.id = h ∧ oj.expired c.timeout s.now = true := by
  simp only [step, timer] at hr
  split at hr
  · rw [hs] at hr; cases hr
  · rename_i oj hoj
    split at hr
    · simp only [setObj] at hr; rw [hs] at hr; cases hr
    · split at hr
      · rw [hs] at hr; cases hr
      · split at hr
        · rename_i he
          simp only [AMap.get_erase] at hr
          split at hr
          · rename_i e; exact ⟨oj, hoj, e.symm, he⟩
          · rw [hs] at hr; cases hr
        · simp only [setObj] at hr; rw [hs] at hr; cases hr
    · rw [hs] at hr; cases hr

theorem C67_own_partial (sha : Bytes → Bytes) (c : Cfg) (as : List Act) (h : Bytes) (i : Nat) (o : Obj)
    (hs : (run sha c .init as).table.get h = some i) (ho : (run sha c .init as).objs i = some o)
    (hr : (step sha c (run sha c .init as) (.timer i)).table.get h = none) :
    o.lastPart + c.timeout * 1000 < (run sha c .init as).now + 1000 := by
  have hi : Inv c (run sha c .init as) := inv_run (inv_init c) as
  obtain ⟨oj, hoj, -, he⟩ := timer_removes hs hr
  rw [ho] at hoj; cases hoj
  exact expired_idle (hi.obj i o ho) he

theorem C67_foreign_partial (sha : Bytes → Bytes) (c : Cfg) (as : List Act) (j : Nat) (h : Bytes) (i : Nat)
    (hs : (run sha c .init as).table.get h = some i) (hne : j ≠ i)
    (hr : (step sha c (run sha c .init as) (.timer j)).table.get h = none) :
    j < i ∧ ∃ oj, (run sha c .init as).objs j = some oj ∧ oj.id = h ∧
      ∀ h', (run sha c .init as).table.get h' ≠ some j := by
  have hi : Inv c (run sha c .init as) := inv_run (inv_init c) as
  obtain ⟨oj, hoj, hid, -⟩ := timer_removes hs hr
  obtain ⟨-, -, -, -, hmax⟩ := hi.tbl h i hs
  have hle := hmax j oj hoj hid
  refine ⟨by omega, oj, hoj, hid, ?_⟩
  intro h' hh'
  obtain ⟨o', h1, h2, -, -⟩ := hi.tbl h' j hh'
  rw [hoj] at h1; cases h1
  rw [← h2, hid, hs] at hh'
  cases hh'; exact hne rfl

/-- If no two transfers have the same hash, only idle transfers are removed. -/
theorem C67_distinct_partial (sha : Bytes → Bytes) (c : Cfg) (as : List Act) (j : Nat) (h : Bytes) (i : Nat)
    (o : Obj) (hd : ∀ a b oa ob, (run sha c .init as).objs a = some oa → (run sha c .init as).objs b = some ob →
      oa.id = ob.id → a = b)
    (hs : (run sha c .init as).table.get h = some i) (ho : (run sha c .init as).objs i = some o)
    (hr : (step sha c (run sha c .init as) (.timer j)).table.get h = none) :
    o.lastPart + c.timeout * 1000 < (run sha c .init as).now + 1000 := by
  by_cases e : j = i
  · subst e; exact C67_own_partial sha c as h j o hs ho hr
  · obtain ⟨hlt, oj, hoj, hid, -⟩ := C67_foreign_partial sha c as j h i hs e hr
    have hi : Inv c (run sha c .init as) := inv_run (inv_init c) as
    obtain ⟨o', h1, h2, -, -⟩ := hi.tbl h i hs
    exact absurd (hd j i oj o' hoj h1 (by rw [hid, h2])) e

/-- No transfer stays in the table for more than two timeouts after its last part. -/
theorem C67_given_up (sha : Bytes → Bytes) (c : Cfg) (as : List Act) (h : Bytes) (i : Nat)
    (hs : (run sha c .init as).table.get h = some i) :
    ∃ o, (run sha c .init as).objs i = some o ∧ o.id = h ∧
      (run sha c .init as).now ≤ o.lastPart + 2 * (c.timeout * 1000) + 2 * c.late := by
  have hi : Inv c (run sha c .init as) := inv_run (inv_init c) as
  obtain ⟨o, h1, h2, h3, -⟩ := hi.tbl h i hs
  refine ⟨o, h1, h2, ?_⟩
  have ht := (hi.obj i o h1).task
  unfold TaskOk at ht
  cases he : o.task <;> simp only [he] at ht
  · omega
  · omega
  · exact absurd he h3

/-- From every reachable state the timeout tasks can run so that time goes on. -/
theorem C67_time_passes (sha : Bytes → Bytes) (c : Cfg) (as : List Act) :
    ∃ bs : List Act, (∀ b ∈ bs, (∃ i, b = .timer i) ∨ b = .tick 1) ∧
      (run sha c .init (as ++ bs)).now = (run sha c .init as).now + 1 := by
  refine ⟨allTimers (run sha c .init as).next ++ [.tick 1], ?_, ?_⟩
  · have : ∀ n, ∀ b ∈ allTimers n, ∃ i, b = .timer i := by
      intro n
      induction n with
      | zero => intro b hb; cases hb
      | succ n ih =>
        intro b hb
        simp only [allTimers, List.mem_append, List.mem_cons, List.not_mem_nil, or_false] at hb
        rcases hb with hb | hb | hb
        · exact ih b hb
        · exact ⟨n, hb⟩
        · exact ⟨n, hb⟩
    intro b hb
    simp only [List.mem_append, List.mem_cons, List.not_mem_nil, or_false] at hb
    rcases hb with hb | hb
    · exact Or.inl (this _ b hb)
    · exact Or.inr hb
  · rw [run_append]; exact time_passes (inv_run (inv_init c) as)

/-- A transfer that is given up by its own task, three seconds after its only part. -/
example : let as : List Act := [.lookup 0 part1, .handle 0, .handle 0, .timer 0, .tick 3000]
    (run id cfg .init as).table.get msg = some 0 ∧
      (step id cfg (run id cfg .init as) (.timer 0)).table.get msg = none := by decide +kernel

/-- A second part two seconds after the first one keeps the transfer; it is given up at six seconds. -/
example : let as : List Act := [.lookup 0 part1, .handle 0, .handle 0, .timer 0, .tick 2000, .lookup 1 part1,
      .handle 1, .handle 1, .tick 1000, .timer 0]
    (run id cfg .init as).table.get msg = some 0 ∧
      (run id cfg .init (as ++ [.tick 3000])).now = 6000 ∧
      (run id cfg .init (as ++ [.tick 3001])).now = 3000 ∧
      (run id cfg .init (as ++ [.tick 3000, .timer 0])).table.get msg = none := by decide +kernel

/-- The hypotheses of `C67_foreign_partial` are met by the witness above. -/
example : (run id cfg .init again).table.get msg = some 1 ∧
    (step id cfg (run id cfg .init again) (.timer 0)).table.get msg = none := by decide +kernel

/-- The hypothesis of `C67_distinct_partial` is met by the first example. -/
example : let as : List Act := [.lookup 0 part1, .handle 0, .handle 0, .timer 0, .tick 3000]
    ∀ a b oa ob, (run id cfg .init as).objs a = some oa → (run id cfg .init as).objs b = some ob →
      oa.id = ob.id → a = b := by
  intro as a b oa ob ha hb _
  have hi : Inv cfg (run id cfg .init as) := inv_run (inv_init cfg) as
  have hn : (run id cfg .init as).next = 1 := by decide +kernel
  have h1 := hi.fresh a oa ha
  have h2 := hi.fresh b ob hb
  omega

-- C67_own_partial, C67_given_up, C67_distinct_partial with the first run above, C67_foreign_partial with `again`
example (o : Obj) (ho : (run id cfg .init [.lookup 0 part1, .handle 0, .handle 0, .timer 0, .tick 3000]).objs 0 = some o) :=
  C67_own_partial id cfg [.lookup 0 part1, .handle 0, .handle 0, .timer 0, .tick 3000] msg 0 o (by decide +kernel) ho
    (by decide +kernel)
example := C67_given_up id cfg [.lookup 0 part1, .handle 0, .handle 0, .timer 0, .tick 3000] msg 0 (by decide +kernel)
example (o : Obj) (ho : (run id cfg .init [.lookup 0 part1, .handle 0, .handle 0, .timer 0, .tick 3000]).objs 0 = some o) :=
  C67_distinct_partial id cfg [.lookup 0 part1, .handle 0, .handle 0, .timer 0, .tick 3000] 0 msg 0 o (by
    intro a b oa ob ha hb _
    have hi := inv_run (sha := id) (inv_init cfg) [.lookup 0 part1, .handle 0, .handle 0, .timer 0, .tick 3000]
    have hn : (run id cfg .init [.lookup 0 part1, .handle 0, .handle 0, .timer 0, .tick 3000]).next = 1 := by decide +kernel
    have h1 := hi.fresh a oa ha
    have h2 := hi.fresh b ob hb
    omega) (by decide +kernel) ho (by decide +kernel)
example := C67_foreign_partial id cfg again 0 msg 1 (by decide +kernel) (by decide) (by decide +kernel)

end Verif.Props.TransferTimeout
