import Verif.Model.PacketsHistoryConc
import Verif.Proofs.PacketsHistory
import Mathlib.Tactic.Tauto

namespace Verif.PacketsHistory

/-- The thread holds the `IN_TRANSIT` lock. -/
def PC.crit : PC → Bool
  | .setBit _ | .readSeq _ _ | .storeSeq _ _ | .unlock _ _ => true
  | _ => false

/-- The thread has set its bit (it returned `true` or is bound to). -/
def PC.past : PC → Bool
  | .readSeq _ _ | .storeSeq _ _ | .unlock _ _ | .done true => true
  | _ => false

/-- Local shape of a thread: `index` copies are 0 and the shift branch is never entered. -/
def PC.ok (h : Hist) (s : Nat) : PC → Prop
  | .load => True
  | .readBit i => i = 0
  | .recheck i already => i = 0 ∧ (already = true → bitOf h s = true)
  | .casBit i => i = 0
  | .setBit i => i = 0
  | .readSeq i n => i = 0 ∧ n = 0 ∧ bitOf h s = true
  | .storeSeq i n => i = 0 ∧ n = 0 ∧ bitOf h s = true
  | .unlock i n => i = 0 ∧ n = 0 ∧ bitOf h s = true
  | .done _ => bitOf h s = true
  | _ => False

structure ConcInv (seqnos : Nat → Nat) (σ : Sys) : Prop where
  idx : σ.hist.index = 0 ∨ σ.hist.index = inTransit
  mutex : ∀ t u, (σ.pc t).crit = true → (σ.pc u).crit = true → t = u
  lock : ∀ t, (σ.pc t).crit = true → σ.hist.index = inTransit
  ok : ∀ t, (σ.pc t).ok σ.hist (seqnos t)
  origin : ∀ s, s < 256 → bitOf σ.hist s = true → ∃ t, seqnos t = s ∧ (σ.pc t).past = true

theorem wordOf_zero (s : Nat) (hs : s < 256) : wordOf 0 s = 4 + s / 64 := by
  have : s % 256 = s := Nat.mod_eq_of_lt hs
  simp [wordOf, half, this]

theorem init_inv (seqnos : Nat → Nat) : ConcInv seqnos Sys.init := by
  refine ⟨.inl rfl, ?_, ?_, ?_, ?_⟩
  · intro t u h; simp [Sys.init, PC.crit] at h
  · intro t h; simp [Sys.init, PC.crit] at h
  · intro t; trivial
  · intro s _ h; simp [Sys.init, bitOf, forRecv] at h

/-- Setting a bit never clears a bit of a small number. -/
theorem bitOf_or (h : Hist) (s t w : Nat) (_hs : s < 256) (_ht : t < 256)
    (hw : w = 4 + s / 64) :
    bitOf { h with bits := fun i => if i = w then h.bits i ||| 1 <<< (s % 64) else h.bits i } t
      = (bitOf h t || decide (s = t)) := by
  subst hw
  simp only [bitOf]
  by_cases hwd : s / 64 = t / 64
  · simp only [hwd, if_true]
    rw [testBit_or_shift]
    congr 1
    simp only [decide_eq_decide]; omega
  · have h1 : ¬ (4 + t / 64 = 4 + s / 64) := by omega
    have h2 : ¬ s = t := by rintro rfl; exact hwd rfl
    simp only [h1, if_false, h2, decide_false, Bool.or_false]

theorem PC.ok_mono (h h' : Hist) (s : Nat) (hm : bitOf h s = true → bitOf h' s = true) (p : PC)
    (hp : p.ok h s) : p.ok h' s := by
  cases p <;> simp_all [PC.ok]

/-- Summary of one step of one thread when all numbers are small. -/
theorem stepPC_facts (h : Hist) (s : Nat) (hs : s < 256) (p : PC) (hp : p.ok h s)
    (hidx : h.index = 0 ∨ h.index = inTransit) (hl : p.crit = true → h.index = inTransit) :
    let r := stepPC h s p
    (r.1.index = 0 ∨ r.1.index = inTransit) ∧
    (r.2.crit = true → r.1.index = inTransit) ∧
    r.2.ok r.1 s ∧
    (p.crit = false → r.2.crit = true → h.index = 0) ∧
    (p.crit = false → r.2.crit = false → r.1.index = h.index) ∧
    (p.crit = true → r.2.crit = true → r.1.index = h.index) ∧
    (p.past = true → r.2.past = true) ∧
    (∀ t, t < 256 → bitOf r.1 t = true → bitOf h t = true ∨ (t = s ∧ r.2.past = true)) ∧
    (∀ t, t < 256 → bitOf h t = true → bitOf r.1 t = true) := by
  have e1 : s % 256 = s := Nat.mod_eq_of_lt hs
  cases p with
  | load =>
    rcases hidx with h0 | h1
    · simp [stepPC, h0, inTransit, half, e1, PC.crit, PC.ok, PC.past]
      try tauto
    · simp [stepPC, h1, PC.crit, PC.ok, PC.past]
      try tauto
  | readBit i =>
    simp only [PC.ok] at hp
    subst hp
    simp only [stepPC, PC.crit, PC.ok, PC.past, half, e1, wordOf_zero s hs, and_shift_ne_zero]
    simp only [bitOf]
    refine ⟨hidx, by simp, by simp, by simp, by simp, by simp, by simp, ?_, ?_⟩
    · intro t _ ht; exact .inl ht
    · intro t _ ht; exact ht
  | recheck i a =>
    obtain ⟨rfl, hb⟩ := hp
    simp only [stepPC]
    split
    · simp [PC.crit, PC.ok, PC.past, hidx]; try tauto
    · split
      · rename_i ha
        have := hb ha
        simp [PC.crit, PC.ok, PC.past, hidx, this]; try tauto
      · simp [PC.crit, PC.ok, PC.past, hidx]; try tauto
  | casBit i =>
    simp only [PC.ok] at hp
    subst hp
    simp only [stepPC]
    split
    · rename_i h0
      simp [PC.crit, PC.ok, PC.past, h0, bitOf]; try tauto
    · simp [PC.crit, PC.ok, PC.past, hidx]; try tauto
  | casShift i => cases hp
  | shift i j => cases hp
  | clear i j => cases hp
  | setBit i =>
    simp only [PC.ok] at hp
    subst hp
    have hidx' : h.index = inTransit := hl rfl
    have key : ∀ t, t < 256 → _ := fun t ht => bitOf_or h s t _ hs ht (wordOf_zero s hs)
    simp only [stepPC, half, e1]
    refine ⟨.inr hidx', fun _ => hidx', ?_, ?_, ?_, ?_, ?_, ?_, ?_⟩
    · refine ⟨rfl, rfl, ?_⟩
      rw [key s hs]; simp
    · simp [PC.crit]
    · simp [PC.crit]
    · simp
    · simp [PC.past]
    · intro t ht hb
      rw [key t ht] at hb
      simp only [Bool.or_eq_true, decide_eq_true_eq] at hb
      rcases hb with hb | hb
      · exact .inl hb
      · exact .inr ⟨hb.symm, rfl⟩
    · intro t ht hb
      rw [key t ht, hb]; rfl
  | readSeq i n =>
    obtain ⟨rfl, rfl, hb⟩ := hp
    have hidx' : h.index = inTransit := hl rfl
    simp only [stepPC]
    split <;> simp [PC.crit, PC.ok, PC.past, hidx', hb] <;> try tauto
  | storeSeq i n =>
    obtain ⟨rfl, rfl, hb⟩ := hp
    have hidx' : h.index = inTransit := hl rfl
    simp only [bitOf] at hb
    simp [stepPC, PC.crit, PC.ok, PC.past, hidx', hb, bitOf]
    try tauto
  | unlock i n =>
    obtain ⟨rfl, rfl, hb⟩ := hp
    have hidx' : h.index = inTransit := hl rfl
    simp only [bitOf] at hb
    simp [stepPC, PC.crit, PC.ok, PC.past, hidx', hb, bitOf, half]
    try tauto
  | done r =>
    have hb : bitOf h s = true := hp
    simp only [stepPC]
    cases r <;> simp [PC.crit, PC.ok, PC.past, hidx, hb] <;> try tauto

theorem step_inv (seqnos : Nat → Nat) (hsmall : ∀ t, seqnos t < 256) (σ : Sys)
    (hi : ConcInv seqnos σ) (t : Nat) : ConcInv seqnos (σ.step seqnos t) := by
  obtain ⟨f1, f2, f3, f4, f5, f6, f7, f8, f9⟩ :=
    stepPC_facts σ.hist (seqnos t) (hsmall t) (σ.pc t) (hi.ok t) hi.idx (hi.lock t)
  have hne : (0 : Nat) ≠ inTransit := by decide
  -- no other thread is critical if this one becomes or stays critical
  have others : ∀ u, u ≠ t → (σ.pc u).crit = true →
      (stepPC σ.hist (seqnos t) (σ.pc t)).2.crit = false ∧
      (stepPC σ.hist (seqnos t) (σ.pc t)).1.index = σ.hist.index := by
    intro u hu hcu
    have hct : (σ.pc t).crit = false := by
      by_contra hc
      exact hu (hi.mutex u t hcu (by simpa using hc))
    have hlock := hi.lock u hcu
    have hc2 : (stepPC σ.hist (seqnos t) (σ.pc t)).2.crit = false := by
      by_contra hc
      have := f4 hct (by simpa using hc)
      rw [this] at hlock; exact hne hlock
    exact ⟨hc2, f5 hct hc2⟩
  refine ⟨f1, ?_, ?_, ?_, ?_⟩
  · intro u v hu hv
    simp only [Sys.step] at hu hv
    by_cases h1 : u = t <;> by_cases h2 : v = t
    · omega
    · simp only [h1, if_true] at hu
      simp only [h2, if_false] at hv
      have := (others v h2 hv).1
      rw [this] at hu; cases hu
    · simp only [h1, if_false] at hu
      simp only [h2, if_true] at hv
      have := (others u h1 hu).1
      rw [this] at hv; cases hv
    · simp only [h1, h2, if_false] at hu hv
      exact hi.mutex u v hu hv
  · intro u hu
    simp only [Sys.step] at hu ⊢
    by_cases h1 : u = t
    · simp only [h1, if_true] at hu; exact f2 hu
    · simp only [h1, if_false] at hu
      rw [(others u h1 hu).2]; exact hi.lock u hu
  · intro u
    simp only [Sys.step]
    by_cases h1 : u = t
    · simp only [h1, if_true]; exact f3
    · simp only [h1, if_false]
      exact PC.ok_mono _ _ _ (f9 _ (hsmall u)) _ (hi.ok u)
  · intro s hs hb
    simp only [Sys.step] at hb ⊢
    rcases f8 s hs hb with h1 | ⟨h1, h2⟩
    · obtain ⟨u, hu1, hu2⟩ := hi.origin s hs h1
      refine ⟨u, hu1, ?_⟩
      by_cases h3 : u = t
      · simp only [h3, if_true]; exact f7 (h3 ▸ hu2)
      · simp only [h3, if_false]; exact hu2
    · exact ⟨t, h1.symm, by simpa using h2⟩

theorem run_inv (seqnos : Nat → Nat) (hsmall : ∀ t, seqnos t < 256) (σ : Sys)
    (hi : ConcInv seqnos σ) (sched : List Nat) : ConcInv seqnos (σ.run seqnos sched) := by
  induction sched generalizing σ with
  | nil => exact hi
  | cons t ts ih => exact ih _ (step_inv seqnos hsmall σ hi t)

theorem step_bit_mono (seqnos : Nat → Nat) (hsmall : ∀ t, seqnos t < 256) (σ : Sys)
    (hi : ConcInv seqnos σ) (t s : Nat) (hs : s < 256) (hb : bitOf σ.hist s = true) :
    bitOf (σ.step seqnos t).hist s = true :=
  (stepPC_facts σ.hist (seqnos t) (hsmall t) (σ.pc t) (hi.ok t) hi.idx (hi.lock t)).2.2.2.2.2.2.2.2
    s hs hb

/-- A thread that starts after the bit was set stays on the refusing path. -/
def PC.refusing : PC → Bool
  | .load | .readBit 0 | .recheck 0 true | .done false => true
  | _ => false

theorem refusing_step (h : Hist) (s : Nat) (hs : s < 256) (p : PC) (hp : p.refusing = true)
    (hidx : h.index = 0 ∨ h.index = inTransit) (hb : bitOf h s = true) :
    (stepPC h s p).2.refusing = true := by
  have e1 : s % 256 = s := Nat.mod_eq_of_lt hs
  cases p with
  | load =>
    rcases hidx with h0 | h1
    · simp [stepPC, h0, inTransit, half, e1, PC.refusing]
    · simp [stepPC, h1, PC.refusing]
  | readBit i =>
    cases i with
    | zero =>
      simp only [stepPC, half, e1, wordOf_zero s hs, and_shift_ne_zero]
      simp only [bitOf] at hb
      simp [hb, PC.refusing]
    | succ n => simp [PC.refusing] at hp
  | recheck i a =>
    cases i with
    | zero =>
      cases a with
      | true => simp only [stepPC]; split <;> simp [PC.refusing]
      | false => simp [PC.refusing] at hp
    | succ n => cases a <;> simp [PC.refusing] at hp
  | done r => cases r <;> simp_all [PC.refusing, stepPC]
  | _ => simp [PC.refusing] at hp

theorem refusing_run (seqnos : Nat → Nat) (hsmall : ∀ t, seqnos t < 256) (σ : Sys)
    (hi : ConcInv seqnos σ) (b : Nat) (hb : bitOf σ.hist (seqnos b) = true)
    (hr : (σ.pc b).refusing = true) (sched : List Nat) :
    ((σ.run seqnos sched).pc b).refusing = true := by
  induction sched generalizing σ with
  | nil => exact hr
  | cons t ts ih =>
    refine ih _ (step_inv seqnos hsmall σ hi t)
      (step_bit_mono seqnos hsmall σ hi t _ (hsmall b) hb) ?_
    simp only [Sys.step]
    by_cases h1 : b = t
    · subst h1
      simp only [if_true]
      exact refusing_step _ _ (hsmall b) _ hr hi.idx hb
    · simp only [h1, if_false]; exact hr

end Verif.PacketsHistory
