import Verif.Model.Socket

/-!
# C95: the receive buffer is made as large as the system allows
-/
namespace Verif.Socket

theorem int32_some {x : Int} (h1 : -2 ^ 31 ≤ x) (h2 : x < 2 ^ 31) : int32 x = some x := by
  unfold int32
  rw [if_pos ⟨h1, h2⟩]

/-- What the loop does on any interval. -/
theorem search_spec (accepts : Int → Bool) (hm : ∀ a b, 0 ≤ a → a ≤ b → accepts b = true → accepts a = true) :
    ∀ (fuel : Nat) (size lo hi : Int), 0 ≤ lo → lo < 2 ^ 31 → hi ≤ 2 ^ 24 → -1 ≤ hi →
      hi - lo + 1 < ((2 ^ fuel : Nat) : Int) → size ≤ lo →
      ∃ r, search accepts (fuel + 1) size lo hi = some r ∧ r.asked.length ≤ fuel ∧
        (∀ n ∈ r.asked, lo ≤ n ∧ n ≤ hi) ∧ size ≤ r.size ∧ (r.size = size ∨ r.size ∈ r.asked ∧ accepts r.size = true) ∧
        ∀ n, lo ≤ n → n ≤ hi → accepts n = true → n ≤ r.size := by
  intro fuel
  induction fuel with
  | zero =>
    intro size lo hi h0 _ _ _ h4 _
    rw [search, if_neg (by omega)]
    exact ⟨_, rfl, by simp, by simp, Int.le_refl _, .inl rfl, fun n h1 h2 _ => by simp only; omega⟩
  | succ fuel ih =>
    intro size lo hi h0 h1 h2 h3 h4 h5
    rw [search]
    by_cases hle : lo ≤ hi
    · rw [if_pos hle]
      have hpow : ((2 ^ (fuel + 1) : Nat) : Int) = 2 * ((2 ^ fuel : Nat) : Int) := by
        rw [Nat.pow_succ]; push_cast; omega
      rw [hpow] at h4
      generalize ((2 ^ fuel : Nat) : Int) = P at h4 ih
      rw [int32_some (x := hi - lo) (by omega) (by omega)]
      simp only [Option.bind_eq_bind, Option.bind_some]
      rw [int32_some (x := lo + (hi - lo) / 2) (by omega) (by omega)]
      simp only [Option.bind_some]
      generalize ha : lo + (hi - lo) / 2 = avg
      have ha1 : lo ≤ avg := by omega
      have ha2 : avg ≤ hi := by omega
      by_cases hacc : accepts avg = true
      · rw [if_pos hacc, int32_some (x := avg + 1) (by omega) (by omega)]
        obtain ⟨r, e, g1, g2, g3, g4, g5⟩ := ih avg (avg + 1) hi (by omega) (by omega) h2 h3 (by omega) (by omega)
        refine ⟨⟨avg :: r.asked, r.size⟩, by simp [e], by simpa using g1, ?_, by simp only; omega, ?_, ?_⟩
        · intro n hn
          rcases List.mem_cons.1 hn with rfl | hn
          · exact ⟨ha1, ha2⟩
          · have := g2 n hn
            omega
        · right
          rcases g4 with g4 | g4
          · exact ⟨by simp [g4], by rw [g4]; exact hacc⟩
          · exact ⟨by simp [g4.1], g4.2⟩
        · intro n n1 n2 n3
          by_cases hn : avg + 1 ≤ n
          · exact g5 n hn n2 n3
          · simp only; omega
      · rw [if_neg hacc, int32_some (x := avg - 1) (by omega) (by omega)]
        obtain ⟨r, e, g1, g2, g3, g4, g5⟩ := ih size lo (avg - 1) h0 h1 (by omega) (by omega) (by omega) h5
        refine ⟨⟨avg :: r.asked, r.size⟩, by simp [e], by simpa using g1, ?_, g3, ?_, ?_⟩
        · intro n hn
          rcases List.mem_cons.1 hn with rfl | hn
          · exact ⟨ha1, ha2⟩
          · have := g2 n hn
            omega
        · rcases g4 with g4 | g4
          · exact .inl g4
          · exact .inr ⟨by simp [g4.1], g4.2⟩
        · intro n n1 n2 n3
          refine g5 n n1 ?_ n3
          by_contra hn
          exact hacc (hm avg n (by omega) (by omega) n3)
    · rw [if_neg hle]
      exact ⟨_, rfl, by simp, by simp, Int.le_refl _, .inl rfl, fun n h1 h2 _ => by simp only; omega⟩

/-- **C95.** For any system that accepts, with a size, also the smaller ones, the loop ends after at most 25 calls
without overflow, never asks for less than the present size nor for more than 2^24, and leaves the largest size
that is accepted in this range, or the present one if none is. -/
theorem C95_largest (accepts : Int → Bool) (hm : ∀ a b, 0 ≤ a → a ≤ b → accepts b = true → accepts a = true)
    (current : Int) (h0 : 0 ≤ current) (h1 : current < 2 ^ 31) :
    ∃ r, (∀ fuel, 26 ≤ fuel → maximise accepts fuel current = some r) ∧ r.asked.length ≤ 25 ∧
      (∀ n ∈ r.asked, current ≤ n ∧ n ≤ 2 ^ 24) ∧ current ≤ r.size ∧
      (r.size = current ∨ r.size ∈ r.asked ∧ accepts r.size = true) ∧
      ∀ n, current ≤ n → n ≤ 2 ^ 24 → accepts n = true → n ≤ r.size := by
  have hmono : ∀ fuel size lo hi r, search accepts fuel size lo hi = some r →
      search accepts (fuel + 1) size lo hi = some r := by
    intro fuel
    induction fuel with
    | zero => intro _ _ _ _ h; cases h
    | succ fuel ih =>
      intro size lo hi r h
      rw [search] at h ⊢
      by_cases hle : lo ≤ hi
      · rw [if_pos hle] at h ⊢
        cases h1 : int32 (hi - lo) with
        | none => rw [h1] at h; cases h
        | some d =>
          rw [h1] at h
          simp only [Option.bind_eq_bind, Option.bind_some] at h ⊢
          cases h2 : int32 (lo + d / 2) with
          | none => rw [h2] at h; cases h
          | some avg =>
            rw [h2] at h
            simp only [Option.bind_some] at h ⊢
            by_cases ha : accepts avg = true
            · rw [if_pos ha] at h ⊢
              cases h3 : int32 (avg + 1) with
              | none => rw [h3] at h; cases h
              | some x =>
                rw [h3] at h
                simp only [Option.bind_some] at h ⊢
                cases h4 : search accepts fuel avg x hi with
                | none => rw [h4] at h; cases h
                | some r' => rw [h4] at h; rw [ih _ _ _ _ h4]; exact h
            · rw [if_neg ha] at h ⊢
              cases h3 : int32 (avg - 1) with
              | none => rw [h3] at h; cases h
              | some x =>
                rw [h3] at h
                simp only [Option.bind_some] at h ⊢
                cases h4 : search accepts fuel size lo x with
                | none => rw [h4] at h; cases h
                | some r' => rw [h4] at h; rw [ih _ _ _ _ h4]; exact h
      · rw [if_neg hle] at h ⊢
        exact h
  obtain ⟨r, e, g⟩ := search_spec accepts hm 25 current current maxSize h0 h1 (by decide) (by decide)
    (by unfold maxSize; omega) (Int.le_refl _)
  refine ⟨r, ?_, g⟩
  intro fuel hf
  obtain ⟨k, rfl⟩ := Nat.exists_eq_add_of_le hf
  clear hf
  unfold maximise
  induction k with
  | zero => exact e
  | succ k ih => exact hmono _ _ _ _ _ ih

/-- A system that accepts sizes up to 1 MB, and a present size of 212992. -/
example : (maximise (fun n => decide (n ≤ 1048576)) 26 212992).map (·.size) = some 1048576 := by decide +kernel

example : ∃ r, (∀ fuel, 26 ≤ fuel → maximise (fun n => decide (n ≤ 1048576)) fuel 212992 = some r) ∧
    1048576 ≤ r.size :=
  have ⟨r, h, _, _, _, _, h'⟩ := C95_largest (fun n => decide (n ≤ 1048576))
    (fun a b _ h hb => by simp at hb ⊢; omega) 212992 (by omega) (by omega)
  ⟨r, h, h' _ (by omega) (by omega) (by decide)⟩

/-- Nothing is changed when the present size is above the limit. -/
theorem C95_large_unchanged (accepts : Int → Bool) (current : Int) (h : 2 ^ 24 < current) :
    maximise accepts 1 current = some ⟨[], current⟩ := by
  unfold maximise
  rw [search, if_neg (by unfold maxSize; omega)]

example := C95_large_unchanged (fun _ => true) (2 ^ 24 + 1) (by omega)

end Verif.Socket
