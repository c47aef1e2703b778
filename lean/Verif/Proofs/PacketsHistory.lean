import Verif.Model.PacketsHistory
import Verif.Spec.Replay
import Mathlib.Data.List.TakeWhile
import Mathlib.Tactic.ByContra

namespace Verif.PacketsHistory

/-- Position of a small number in the upper half of the bit array. -/
def bitOf (h : Hist) (s : Nat) : Bool := (h.bits (4 + s / 64)).testBit (s % 64)

theorem and_shift_ne_zero (w k : Nat) : (w &&& 1 <<< k ≠ 0) ↔ w.testBit k = true := by
  rw [Nat.one_shiftLeft]
  constructor
  · intro h
    by_contra hc
    apply h
    apply Nat.eq_of_testBit_eq
    intro i
    rw [Nat.testBit_and, Nat.testBit_two_pow, Nat.zero_testBit]
    by_cases hk : k = i
    · subst hk; simpa using hc
    · simp [hk]
  · intro h hc
    have := congrArg (fun n => n.testBit k) hc
    simp [Nat.testBit_and, h] at this

theorem testBit_or_shift (w k j : Nat) :
    (w ||| 1 <<< k).testBit j = (w.testBit j || decide (k = j)) := by
  rw [Nat.testBit_or, Nat.one_shiftLeft, Nat.testBit_two_pow]

/-- Everything about one delivery when the window base is 0. -/
theorem deliver_base0 (h : Hist) (hi : h.index = 0) (s : Nat) :
    deliver h s =
      if s < 256 then
        if bitOf h s then (h, false)
        else (⟨0, fun i => if i = 4 + s / 64 then h.bits i ||| 1 <<< (s % 64) else h.bits i,
              if h.seqno < s then s else h.seqno⟩, true)
      else (⟨0, if s < 512 then shiftBits h.bits else fun _ => 0,
              if h.seqno < s then s else h.seqno⟩, true) := by
  unfold deliver
  simp only [hi, half, bitOf]
  by_cases hs : s < 256
  · have e1 : s % 256 = s := Nat.mod_eq_of_lt hs
    simp only [e1, hs, Nat.zero_mod, Nat.sub_self, if_true]
    by_cases hb : (h.bits (4 + s / 64)).testBit (s % 64) = true
    · simp [hb, and_shift_ne_zero]
    · have := mt (and_shift_ne_zero _ _).mp hb
      simp [hb, this]
  · have e2 : 256 ≤ s - s % 256 := by omega
    have e3 : ¬ (0 > s - s % 256) := by omega
    have e4 : ¬ (0 = s - s % 256) := by omega
    simp only [hs, if_false, Nat.zero_mod, Nat.sub_zero, e3, e4, Nat.not_lt_zero, gt_iff_lt]
    by_cases h5 : s < 512
    · have : 0 + 256 = s - s % 256 := by omega
      simp only [this, h5, if_true]; simp
    · have : ¬ (0 + 256 = s - s % 256) := by omega
      simp only [this, h5, if_false]; simp

theorem deliver_index (h : Hist) (hi : h.index = 0) (s : Nat) : (deliver h s).1.index = 0 := by
  rw [deliver_base0 h hi s]
  split
  · split
    · exact hi
    · rfl
  · rfl

theorem run_index (h : Hist) (hi : h.index = 0) (xs : List Nat) : (run h xs).index = 0 := by
  induction xs generalizing h with
  | nil => exact hi
  | cons x xs ih => exact ih _ (deliver_index h hi x)

theorem run_append (h : Hist) (xs ys : List Nat) : run h (xs ++ ys) = run (run h xs) ys := by
  simp [run, List.foldl_append]

theorem run_snoc (h : Hist) (xs : List Nat) (x : Nat) :
    run h (xs ++ [x]) = (deliver (run h xs) x).1 := by simp [run]

/-- Effect of a delivery on the bits of small numbers. -/
theorem bitOf_deliver (h : Hist) (hi : h.index = 0) (s t : Nat) (ht : t < 256) :
    bitOf (deliver h s).1 t = if s < 256 then (bitOf h t || decide (s = t)) else false := by
  rw [deliver_base0 h hi s]
  by_cases hs : s < 256
  · simp only [hs, if_true]
    by_cases hb : bitOf h s
    · simp only [hb, if_true]
      by_cases hst : s = t
      · subst hst; simp [hb]
      · simp [hst]
    · simp only [hb]
      simp only [bitOf, Bool.false_eq_true, if_false]
      by_cases hw : s / 64 = t / 64
      · simp only [hw, if_true]
        rw [testBit_or_shift]
        congr 1
        simp only [decide_eq_decide]
        omega
      · have h1 : ¬ (4 + t / 64 = 4 + s / 64) := by omega
        have h2 : ¬ s = t := by rintro rfl; exact hw rfl
        simp only [h1, if_false, h2, decide_false, Bool.or_false]
  · simp only [hs, if_false, bitOf]
    split
    · have : ¬ (4 + t / 64 < 4) := by omega
      simp [shiftBits, this]
    · simp

theorem accepts_iff (h : Hist) (hi : h.index = 0) (s : Nat) :
    (deliver h s).2 = true ↔ (256 ≤ s ∨ bitOf h s = false) := by
  rw [deliver_base0 h hi s]
  by_cases hs : s < 256
  · have : ¬ 256 ≤ s := by omega
    simp only [hs, if_true, this, false_or]
    cases bitOf h s <;> simp
  · have : 256 ≤ s := by omega
    simp [hs, this]

theorem remembered_snoc (xs : List Nat) (x : Nat) :
    Spec.remembered (xs ++ [x]) = if x < 256 then x :: Spec.remembered xs else [] := by
  have key : ∀ ys : List Nat, Spec.remembered ys = ys.reverse.takeWhile (· < 256) := by
    intro ys; cases ys <;> simp [Spec.remembered]
  rw [key, key, List.reverse_append]
  simp only [List.reverse_singleton, List.singleton_append, List.takeWhile_cons]
  by_cases hx : x < 256 <;> simp [hx]

theorem snoc_induction {α} {P : List α → Prop} (h0 : P []) (h1 : ∀ xs x, P xs → P (xs ++ [x])) :
    ∀ xs, P xs := by
  intro xs
  have : ∀ ys : List α, P ys.reverse := by
    intro ys
    induction ys with
    | nil => exact h0
    | cons y ys ih => rw [List.reverse_cons]; exact h1 _ _ ih
  simpa using this xs.reverse

/-- The bits of the implementation are exactly the remembered small numbers. -/
theorem bitOf_run_fresh (xs : List Nat) (t : Nat) (ht : t < 256) :
    bitOf (run forRecv xs) t = decide (t ∈ Spec.remembered xs) := by
  refine snoc_induction (P := fun xs => bitOf (run forRecv xs) t = decide (t ∈ Spec.remembered xs))
    ?_ ?_ xs
  · simp [run, bitOf, forRecv, Spec.remembered]
  · intro xs x ih
    rw [run_snoc, bitOf_deliver _ (run_index _ rfl xs) _ _ ht, ih, remembered_snoc]
    by_cases hx : x < 256
    · simp only [hx, if_true, List.mem_cons]
      by_cases h1 : x = t
      · simp [h1]
      · have : ¬ t = x := fun h => h1 h.symm
        simp [h1, this]
    · simp [hx]

theorem bitOf_reset (h : Hist) (t : Nat) (ht : t < 256) : bitOf (reset h) t = decide (t = 0) := by
  by_cases h0 : t = 0
  · subst h0; simp [bitOf, reset]
  · simp only [bitOf, reset, h0, decide_false]
    by_cases hw : t / 64 = 0
    · simp only [hw, Nat.add_zero, if_true]
      have : t % 64 ≠ 0 := by omega
      have h1 : (1 : Nat) = 2 ^ 0 := rfl
      rw [h1, Nat.testBit_two_pow]
      simp only [decide_eq_false_iff_not]; omega
    · have : ¬ (4 + t / 64 = 4) := by omega
      simp only [this, if_false, Nat.zero_testBit]

theorem bitOf_run_reset (h : Hist) (xs : List Nat) (t : Nat) (ht : t < 256) :
    bitOf (run (reset h) xs) t =
      decide (t ∈ Spec.remembered xs ∨ (t = 0 ∧ ∀ x ∈ xs, x < 256)) := by
  refine snoc_induction (P := fun xs => bitOf (run (reset h) xs) t =
      decide (t ∈ Spec.remembered xs ∨ (t = 0 ∧ ∀ x ∈ xs, x < 256))) ?_ ?_ xs
  · simp only [run, List.foldl_nil, bitOf_reset h t ht]
    simp [Spec.remembered]
  · intro xs x ih
    rw [run_snoc, bitOf_deliver _ (run_index _ rfl xs) _ _ ht, ih, remembered_snoc]
    by_cases hx : x < 256
    · rw [Bool.eq_iff_iff]
      simp only [hx, if_true, Bool.or_eq_true, decide_eq_true_eq, List.mem_cons, List.mem_append,
        List.not_mem_nil, or_false]
      constructor
      · rintro ((h | ⟨h, h'⟩) | h)
        · exact .inl (.inr h)
        · refine .inr ⟨h, ?_⟩
          rintro y (hy | rfl)
          · exact h' y hy
          · exact hx
        · exact .inl (.inl h.symm)
      · rintro ((h | h) | ⟨h, h'⟩)
        · exact .inr h.symm
        · exact .inl (.inl h)
        · exact .inl (.inr ⟨h, fun y hy => h' y (.inl hy)⟩)
    · simp only [hx, if_false, List.not_mem_nil, false_or]
      symm
      simp only [decide_eq_false_iff_not]
      rintro ⟨_, h⟩
      exact hx (h x (by simp))

theorem seqno_run (h : Hist) (hi : h.index = 0) (xs : List Nat)
    (hb : ∀ t, t < 256 → bitOf h t = true → t ≤ h.seqno) :
    (run h xs).seqno = xs.foldl max h.seqno ∧
      (∀ t, t < 256 → bitOf (run h xs) t = true → t ≤ (run h xs).seqno) := by
  induction xs generalizing h with
  | nil => exact ⟨rfl, hb⟩
  | cons x xs ih =>
    have e : (deliver h x).1.seqno = max h.seqno x := by
      rw [deliver_base0 h hi x]
      by_cases hx : x < 256
      · simp only [hx, if_true]
        by_cases hbx : bitOf h x
        · simp only [hbx, if_true]
          have := hb x hx hbx
          omega
        · simp only [hbx]; simp only [Bool.false_eq_true, if_false]; split <;> omega
      · simp only [hx, if_false]; split <;> omega
    have hb' : ∀ t, t < 256 → bitOf (deliver h x).1 t = true → t ≤ (deliver h x).1.seqno := by
      intro t ht hbt
      rw [bitOf_deliver h hi x t ht] at hbt
      rw [e]
      by_cases hx : x < 256
      · simp only [hx, if_true, Bool.or_eq_true, decide_eq_true_eq] at hbt
        rcases hbt with h1 | h1
        · have := hb t ht h1; omega
        · omega
      · simp [hx] at hbt
    have := ih (deliver h x).1 (deliver_index h hi x) hb'
    simp only [run, List.foldl_cons] at this ⊢
    rw [e] at this
    exact ⟨this.1, by simpa [run] using this.2⟩

theorem mem_remembered_of_small (xs : List Nat) (s : Nat) (h : ∀ x ∈ xs, x < 256) (hs : s ∈ xs) :
    s ∈ Spec.remembered xs := by
  cases xs with
  | nil => cases hs
  | cons x xs =>
    simp only [Spec.remembered]
    rw [show ((x :: xs).reverse.takeWhile (· < 256)) = (x :: xs).reverse from ?_]
    · exact List.mem_reverse.mpr hs
    · rw [List.takeWhile_eq_self_iff]
      intro y hy; simpa using h y (List.mem_reverse.mp hy)

theorem mem_of_remembered (xs : List Nat) (s : Nat) (h : s ∈ Spec.remembered xs) : s ∈ xs := by
  cases xs with
  | nil => cases h
  | cons x xs =>
    simp only [Spec.remembered] at h
    exact List.mem_reverse.mp (List.takeWhile_subset _ h)

end Verif.PacketsHistory
