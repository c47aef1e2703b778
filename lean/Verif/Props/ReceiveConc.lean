import Verif.Model.ReceiveConc
import Verif.Proofs.PacketsHistoryConc

/-!
# C133: replayed packets while the session date of a peer changes
-/
namespace Verif.ReceiveConc
open Verif.PacketsHistory

/-- Positions of `deliver_packet` between taking `IN_TRANSIT` and putting the index back. -/
def locked : PC → Bool
  | .setBit _ | .shift _ _ | .clear _ _ | .readSeq _ _ | .storeSeq _ _ | .unlock _ _ => true
  | _ => false

/-- The task is writing to the receive history `p`. -/
def Pc.writing (k : Task) (p : Bool) : Pc → Bool
  | .word q _ | .seqno q | .unlock q => q == p
  | .deliver pc => k.priority == p && locked pc
  | _ => false

/-- All copies of `index` are 0. -/
def zero : PC → Prop
  | .readBit i | .recheck i _ | .casBit i | .casShift i | .setBit i | .shift i _ | .clear i _ => i = 0
  | .readSeq i n | .storeSeq i n | .unlock i n => i = 0 ∧ n = 0
  | .load | .done _ => True

def Pc.shape : Pc → Prop
  | .deliver pc => zero pc
  | .lockCas _ i => i = 0
  | _ => True

theorem stepPC_zero (h : Hist) (s : Nat) (p : PC) (hz : zero p)
    (hidx : h.index = 0 ∨ h.index = inTransit) (hl : locked p = true → h.index = inTransit) :
    ((stepPC h s p).1.index = 0 ∨ (stepPC h s p).1.index = inTransit) ∧
    (locked (stepPC h s p).2 = true → (stepPC h s p).1.index = inTransit) ∧
    zero (stepPC h s p).2 ∧
    (locked p = false → locked (stepPC h s p).2 = true → h.index = 0) ∧
    (locked p = false → locked (stepPC h s p).2 = false → (stepPC h s p).1.index = h.index) := by
  have hne : (0 : Nat) ≠ inTransit := by decide
  cases p with
  | load =>
    rcases hidx with h0 | h1
    · simp only [stepPC, h0, hne, if_false]
      split
      · simp [locked, zero, h0]
      · split <;> simp [locked, zero, h0]
    · simp [stepPC, h1, locked, zero]
  | readBit i => simp only [zero] at hz; subst hz; simp [stepPC, locked, zero, hidx]
  | recheck i a =>
    simp only [zero] at hz; subst hz
    simp only [stepPC]
    split
    · simp [locked, zero, hidx]
    · split <;> simp [locked, zero, hidx]
  | casBit i =>
    simp only [zero] at hz; subst hz
    simp only [stepPC]
    split
    · simp [locked, zero, *]
    · simpa [locked, zero] using hidx
  | casShift i =>
    simp only [zero] at hz; subst hz
    simp only [stepPC]
    split
    · split <;> simp [locked, zero, *]
    · simp [locked, zero, hidx]
  | setBit i => simp only [zero] at hz; subst hz; simp [stepPC, locked, zero, hl rfl]
  | shift i j =>
    simp only [zero] at hz; subst hz
    simp only [stepPC]
    split <;> simp [locked, zero, hl rfl]
  | clear i j =>
    simp only [zero] at hz; subst hz
    simp only [stepPC]
    split <;> simp [locked, zero, hl rfl]
  | readSeq i n =>
    obtain ⟨rfl, rfl⟩ := hz
    simp only [stepPC]
    split <;> simp [locked, zero, hl rfl]
  | storeSeq i n => obtain ⟨rfl, rfl⟩ := hz; simp [stepPC, locked, zero, hl rfl]
  | unlock i n =>
    obtain ⟨rfl, rfl⟩ := hz
    simp [stepPC, locked, zero, hl rfl, half]
  | done r => simp [stepPC, locked, zero, hidx]

/-- The lock of each history. -/
structure LockInv (tasks : Nat → Task) (σ : Sys) : Prop where
  idx : ∀ p, (σ.hist p).index = 0 ∨ (σ.hist p).index = inTransit
  mutex : ∀ p t u, (σ.pc t).writing (tasks t) p = true → (σ.pc u).writing (tasks u) p = true → t = u
  lock : ∀ p t, (σ.pc t).writing (tasks t) p = true → (σ.hist p).index = inTransit
  shape : ∀ t, (σ.pc t).shape

theorem init_lock (tasks : Nat → Task) (d : Nat) : LockInv tasks (Sys.init d) :=
  ⟨fun _ => .inl rfl, by intro p t u h; simp [Sys.init, Pc.writing] at h,
    by intro p t h; simp [Sys.init, Pc.writing] at h, fun _ => trivial⟩

theorem afterDate_shape (k : Task) : (afterDate k).shape := by
  unfold afterDate; split <;> trivial

theorem afterDate_writing (k : Task) (p : Bool) : (afterDate k).writing k p = false := by
  unfold afterDate; split <;> simp [Pc.writing, locked]

/-- One step of one task. -/
theorem stepOf_lock (σ : Sys) (k : Task) (pc : Pc) (hs : pc.shape)
    (hidx : ∀ p, (σ.hist p).index = 0 ∨ (σ.hist p).index = inTransit)
    (hl : ∀ p, pc.writing k p = true → (σ.hist p).index = inTransit) (p : Bool) :
    (((stepOf σ k pc).1.hist p).index = 0 ∨ ((stepOf σ k pc).1.hist p).index = inTransit) ∧
    ((stepOf σ k pc).2.writing k p = true → ((stepOf σ k pc).1.hist p).index = inTransit) ∧
    (stepOf σ k pc).2.shape ∧
    (pc.writing k p = false → (stepOf σ k pc).2.writing k p = true → (σ.hist p).index = 0) ∧
    (pc.writing k p = false → (stepOf σ k pc).2.writing k p = false →
      ((stepOf σ k pc).1.hist p).index = (σ.hist p).index) := by
  have hne : (0 : Nat) ≠ inTransit := by decide
  cases pc with
  | start =>
    simp only [stepOf]
    split <;> simp [Pc.writing, locked, Pc.shape, zero, hidx]
  | loaded old =>
    simp only [stepOf]
    split
    · simp [Pc.writing, locked, Pc.shape, zero, hidx]
    · split
      · have hw := afterDate_writing k p
        exact ⟨hidx p, by simp [hw], afterDate_shape k, by simp [hw], by simp⟩
      · split
        · split
          · simp [hidx, Pc.writing, Pc.shape]
          · have hw := afterDate_writing k p
            exact ⟨hidx p, by simp [hw], afterDate_shape k, by simp [hw], by simp⟩
        · simp [Pc.writing, Pc.shape, hidx]
  | lockLoad q =>
    simp only [stepOf]
    split
    · simp [Pc.writing, Pc.shape, hidx]
    · rename_i h
      simp [Pc.writing, Pc.shape, hidx, (hidx q).resolve_right h]
  | lockCas q i =>
    simp only [Pc.shape] at hs; subst hs
    simp only [stepOf]
    split
    · rename_i h
      by_cases e : p = q
      · subst e; simp [Sys.setHist, Pc.writing, Pc.shape, h]
      · simp [Sys.setHist, Pc.writing, Pc.shape, e, Ne.symm e, hidx]
    · simp [Pc.writing, Pc.shape, hidx]
  | word q i =>
    have hq := hl q (by simp [Pc.writing])
    by_cases e : p = q
    · subst e
      by_cases h7 : i < 7 <;> simp [stepOf, h7, Sys.setHist, Pc.writing, Pc.shape, hq]
    · by_cases h7 : i < 7 <;>
        simp [stepOf, h7, Sys.setHist, Pc.writing, Pc.shape, e, Ne.symm e, hidx]
  | seqno q =>
    have hq := hl q (by simp [Pc.writing])
    by_cases e : p = q
    · subst e
      simp [stepOf, Sys.setHist, Pc.writing, Pc.shape, hq]
    · simp [stepOf, Sys.setHist, Pc.writing, Pc.shape, e, Ne.symm e, hidx]
  | unlock q =>
    have hq := hl q (by simp [Pc.writing])
    simp only [stepOf, hq, if_true]
    have hw := afterDate_writing k p
    by_cases e : p = q
    · subst e
      cases p
      · simp [Sys.setHist, Pc.writing, Pc.shape]
      · exact ⟨by simp [Sys.setHist], by simp [hw], afterDate_shape k, by simp [hw],
          by simp [Pc.writing]⟩
    · cases q
      · simp [Sys.setHist, Pc.writing, Pc.shape, e, hidx]
      · exact ⟨by simpa [Sys.setHist, e] using hidx p, by simp [hw], afterDate_shape k, by simp [hw],
          by simp [Sys.setHist, e]⟩
  | deliver pc =>
    have f := stepPC_zero (σ.hist k.priority) k.seqno pc hs (hidx _)
      (fun h => hl k.priority (by simp [Pc.writing, h]))
    obtain ⟨f1, f2, f3, f4, f5⟩ := f
    by_cases e : p = k.priority
    · subst e
      refine ⟨?_, ?_, f3, ?_, ?_⟩ <;> simp [stepOf, Sys.setHist, Pc.writing] <;> assumption
    · simp [stepOf, Sys.setHist, Pc.writing, Pc.shape, e, Ne.symm e, hidx, f3]
  | refused => simp [stepOf, Pc.writing, Pc.shape, hidx]

theorem step_lock (tasks : Nat → Task) (σ : Sys) (hi : LockInv tasks σ) (t : Nat) :
    LockInv tasks (σ.step tasks t) := by
  have F := stepOf_lock σ (tasks t) (σ.pc t) (hi.shape t) hi.idx (fun p => hi.lock p t)
  have hne : (0 : Nat) ≠ inTransit := by decide
  have others : ∀ p u, u ≠ t → (σ.pc u).writing (tasks u) p = true →
      (stepOf σ (tasks t) (σ.pc t)).2.writing (tasks t) p = false ∧
      ((stepOf σ (tasks t) (σ.pc t)).1.hist p).index = (σ.hist p).index := by
    intro p u hu hcu
    obtain ⟨-, -, -, f4, f5⟩ := F p
    have hct : (σ.pc t).writing (tasks t) p = false := by
      by_contra hc
      exact hu (hi.mutex p u t hcu (by simpa using hc))
    have hlock := hi.lock p u hcu
    have hc2 : (stepOf σ (tasks t) (σ.pc t)).2.writing (tasks t) p = false := by
      by_contra hc
      have := f4 hct (by simpa using hc)
      rw [this] at hlock; exact hne hlock
    exact ⟨hc2, f5 hct hc2⟩
  refine ⟨fun p => (F p).1, ?_, ?_, ?_⟩
  · intro p u v hu hv
    simp only [Sys.step] at hu hv
    by_cases h1 : u = t <;> by_cases h2 : v = t
    · omega
    · subst h1
      simp only [if_true] at hu
      simp only [h2, if_false] at hv
      rw [(others p v h2 hv).1] at hu; cases hu
    · subst h2
      simp only [h1, if_false] at hu
      simp only [if_true] at hv
      rw [(others p u h1 hu).1] at hv; cases hv
    · simp only [h1, h2, if_false] at hu hv
      exact hi.mutex p u v hu hv
  · intro p u hu
    simp only [Sys.step] at hu ⊢
    by_cases h1 : u = t
    · subst h1; simp only [if_true] at hu; exact (F p).2.1 hu
    · simp only [h1, if_false] at hu
      rw [(others p u h1 hu).2]; exact hi.lock p u hu
  · intro u
    simp only [Sys.step]
    by_cases h1 : u = t
    · simp only [h1, if_true]; exact (F true).2.2.1
    · simp only [h1, if_false]; exact hi.shape u

theorem run_lock (tasks : Nat → Task) (σ : Sys) (hi : LockInv tasks σ) (sched : List Nat) :
    LockInv tasks (σ.run tasks sched) := by
  induction sched generalizing σ with
  | nil => exact hi
  | cons t ts ih => exact ih _ (step_lock tasks σ hi t)

/-- Whatever the tasks carry (any dates, any numbers) and however they interleave, at most one task at
a time writes to a receive history, be it recording a number or resetting the history. -/
theorem C133_one_writer (tasks : Nat → Task) (date : Nat) (sched : List Nat) (p : Bool) (t u : Nat)
    (ht : (((Sys.init date).run tasks sched).pc t).writing (tasks t) p = true)
    (hu : (((Sys.init date).run tasks sched).pc u).writing (tasks u) p = true) : t = u :=
  (run_lock tasks _ (init_lock tasks date) sched).mutex p t u ht hu

/-! ### Recorded numbers stay recorded until a reset -/

/-- The task has recorded its number. -/
def Pc.recorded : Pc → Bool
  | .deliver pc => pc.past
  | _ => false

/-- A small number does not enter the branch that moves the window. -/
def small : PC → Bool
  | .casShift _ | .shift _ _ | .clear _ _ => false
  | _ => true

/-- Only a reset forgets a small number. -/
theorem stepPC_bits (h : Hist) (s : Nat) (hs : s < 256) (p : PC) (hz : zero p)
    (hns : small p = true)
    (n : Nat) (hn : n < 256) (hb : bitOf h n = true) : bitOf (stepPC h s p).1 n = true := by
  have e1 : s % 256 = s := Nat.mod_eq_of_lt hs
  cases p with
  | load => simp only [stepPC]; split <;> (try split) <;> (try split) <;> exact hb
  | readBit i => exact hb
  | recheck i a => simp only [stepPC]; split <;> (try split) <;> exact hb
  | casBit i => simp only [stepPC]; split <;> exact hb
  | casShift i => simp [small] at hns
  | shift i j => simp [small] at hns
  | clear i j => simp [small] at hns
  | setBit i =>
    simp only [zero] at hz; subst hz
    have := bitOf_or h s n _ hs hn (wordOf_zero s hs)
    simp only [stepPC, half, e1]
    rw [this, hb]; rfl
  | readSeq i m => simp only [stepPC]; split <;> exact hb
  | storeSeq i m => exact hb
  | unlock i m => simp only [stepPC]; split <;> exact hb
  | done r => exact hb

theorem stepPC_small (h : Hist) (s : Nat) (hs : s < 256) (p : PC) (hp : small p = true)
    (hidx : h.index = 0 ∨ h.index = inTransit) : small (stepPC h s p).2 = true := by
  have e1 : s % 256 = s := Nat.mod_eq_of_lt hs
  cases p with
  | load =>
    rcases hidx with h0 | h0 <;> simp [stepPC, h0, small, half, e1, inTransit]
  | readBit i => rfl
  | recheck i a => simp only [stepPC]; split <;> (try split) <;> rfl
  | casBit i => simp only [stepPC]; split <;> rfl
  | casShift i => simp [small] at hp
  | shift i j => simp [small] at hp
  | clear i j => simp [small] at hp
  | setBit i => rfl
  | readSeq i m => simp only [stepPC]; split <;> rfl
  | storeSeq i m => rfl
  | unlock i m => rfl
  | done r => rfl

theorem stepPC_past (h : Hist) (s : Nat) (hs : s < 256) (p : PC) (hz : zero p)
    (hsm : small p = true)
    (hpast : p.past = false) (hp2 : (stepPC h s p).2.past = true) :
    bitOf (stepPC h s p).1 s = true := by
  have e1 : s % 256 = s := Nat.mod_eq_of_lt hs
  cases p with
  | load =>
    simp only [stepPC] at hp2
    split at hp2 <;> (try split at hp2) <;> (try split at hp2) <;> simp [PC.past] at hp2
  | readBit i => simp [stepPC, PC.past] at hp2
  | recheck i a =>
    simp only [stepPC] at hp2
    split at hp2 <;> (try split at hp2) <;> simp [PC.past] at hp2
  | casBit i =>
    simp only [stepPC] at hp2
    split at hp2 <;> simp [PC.past] at hp2
  | casShift i => simp [small] at hsm
  | shift i j => simp [small] at hsm
  | clear i j => simp [small] at hsm
  | setBit i =>
    simp only [zero] at hz; subst hz
    have := bitOf_or h s s _ hs hs (wordOf_zero s hs)
    simp only [stepPC, half, e1]
    rw [this]; simp
  | readSeq i m => simp [PC.past] at hpast
  | storeSeq i m => simp [PC.past] at hpast
  | unlock i m => simp [PC.past] at hpast
  | done r => cases r <;> simp_all [PC.past, stepPC]

def Pc.narrow : Pc → Bool
  | .deliver pc => small pc
  | _ => true

theorem afterDate_narrow (k : Task) : (afterDate k).narrow = true := by
  unfold afterDate; split <;> rfl

theorem stepOf_narrow (σ : Sys) (k : Task) (hs : k.seqno < 256) (pc : Pc) (hp : pc.narrow = true)
    (hidx : ∀ p, (σ.hist p).index = 0 ∨ (σ.hist p).index = inTransit) :
    (stepOf σ k pc).2.narrow = true := by
  cases pc with
  | start => simp only [stepOf]; split <;> rfl
  | loaded old =>
    simp only [stepOf]
    split
    · rfl
    · split
      · exact afterDate_narrow k
      · split
        · split
          · rfl
          · exact afterDate_narrow k
        · rfl
  | lockLoad p => simp only [stepOf]; split <;> rfl
  | lockCas p i => simp only [stepOf]; split <;> rfl
  | word p i => simp only [stepOf]; split <;> rfl
  | seqno p => rfl
  | unlock p =>
    simp only [stepOf]
    cases p
    · rfl
    · exact afterDate_narrow k
  | deliver pc => exact stepPC_small _ _ hs _ hp (hidx _)
  | refused => rfl

/-- The histories keep a small number in every step that is not the clearing of a word. -/
theorem stepOf_bits (σ : Sys) (k : Task) (hs : k.seqno < 256) (pc : Pc) (hsh : pc.shape)
    (hp : pc.narrow = true) (p : Bool) (hw : ∀ i, pc ≠ .word p i) (n : Nat) (hn : n < 256)
    (hb : bitOf (σ.hist p) n = true) : bitOf ((stepOf σ k pc).1.hist p) n = true := by
  cases pc with
  | start => simp only [stepOf]; split <;> exact hb
  | loaded old =>
    simp only [stepOf]
    split
    · exact hb
    · split
      · exact hb
      · split <;> exact hb
  | lockLoad q => exact hb
  | lockCas q i =>
    simp only [stepOf]
    split
    · by_cases e : p = q
      · subst e; simpa [Sys.setHist, bitOf] using hb
      · simpa [Sys.setHist, e] using hb
    · exact hb
  | word q i =>
    have e : p ≠ q := by rintro rfl; exact hw i rfl
    simpa [stepOf, Sys.setHist, e] using hb
  | seqno q =>
    by_cases e : p = q
    · subst e; simpa [stepOf, Sys.setHist, bitOf] using hb
    · simpa [stepOf, Sys.setHist, e] using hb
  | unlock q =>
    simp only [stepOf]
    split
    · by_cases e : p = q
      · subst e; simpa [Sys.setHist, bitOf] using hb
      · simpa [Sys.setHist, e] using hb
    · exact hb
  | deliver pc =>
    by_cases e : p = k.priority
    · subst e
      simp only [stepOf, Sys.setHist, if_true]
      exact stepPC_bits _ _ hs _ hsh hp n hn hb
    · simpa [stepOf, Sys.setHist, e] using hb
  | refused => exact hb

theorem afterDate_recorded (k : Task) : (afterDate k).recorded = false := by
  unfold afterDate; split <;> rfl

theorem stepPC_stays_past (h : Hist) (s : Nat) (p : PC) (hp : p.past = true) :
    (stepPC h s p).2.past = true := by
  cases p with
  | readSeq i m => simp only [stepPC]; split <;> rfl
  | storeSeq i m => rfl
  | unlock i m => rfl
  | done r => exact hp
  | _ => simp [PC.past] at hp

theorem stepOf_recorded (σ : Sys) (k : Task) (pc : Pc) (hp : pc.recorded = true) :
    (stepOf σ k pc).2.recorded = true := by
  cases pc with
  | deliver pc => exact stepPC_stays_past _ _ _ hp
  | _ => simp [Pc.recorded] at hp

/-- A number is in the history once its task has recorded it. -/
theorem stepOf_records (σ : Sys) (k : Task) (hs : k.seqno < 256) (pc : Pc) (hsh : pc.shape)
    (hp : pc.narrow = true) (h1 : pc.recorded = false) (h2 : (stepOf σ k pc).2.recorded = true) :
    bitOf ((stepOf σ k pc).1.hist k.priority) k.seqno = true := by
  cases pc with
  | deliver pc =>
    simp only [stepOf, Sys.setHist, if_true]
    exact stepPC_past _ _ hs _ hsh hp h1 h2
  | start =>
    simp only [stepOf] at h2
    split at h2 <;> simp [Pc.recorded, PC.past] at h2
  | loaded old =>
    have ha := afterDate_recorded k
    simp only [stepOf] at h2
    split at h2
    · simp [Pc.recorded, PC.past] at h2
    · split at h2
      · rw [ha] at h2; cases h2
      · split at h2
        · simp only at h2
          split at h2
          · simp [Pc.recorded] at h2
          · rw [ha] at h2; cases h2
        · simp [Pc.recorded] at h2
  | lockLoad q =>
    simp only [stepOf] at h2
    split at h2 <;> simp [Pc.recorded] at h2
  | lockCas q i =>
    simp only [stepOf] at h2
    split at h2 <;> simp [Pc.recorded] at h2
  | word q i =>
    simp only [stepOf] at h2
    split at h2 <;> simp [Pc.recorded] at h2
  | seqno q => simp [stepOf, Pc.recorded] at h2
  | unlock q =>
    have ha := afterDate_recorded k
    cases q
    · simp [stepOf, Pc.recorded] at h2
    · simp only [stepOf, if_true] at h2
      rw [ha] at h2; cases h2
  | refused => simp [stepOf, Pc.recorded] at h2

/-- The task has not got past looking up a number that is in the history. -/
def Pc.hopeless : Pc → Bool
  | .deliver pc => pc.refusing
  | _ => true

theorem stepOf_hopeless (σ : Sys) (k : Task) (hs : k.seqno < 256) (pc : Pc)
    (hp : pc.hopeless = true) (hidx : ∀ p, (σ.hist p).index = 0 ∨ (σ.hist p).index = inTransit)
    (hb : bitOf (σ.hist k.priority) k.seqno = true) : (stepOf σ k pc).2.hopeless = true := by
  have ha : (afterDate k).hopeless = true := by unfold afterDate; split <;> rfl
  cases pc with
  | start => simp only [stepOf]; split <;> rfl
  | loaded old =>
    simp only [stepOf]
    split
    · rfl
    · split
      · exact ha
      · split
        · split
          · rfl
          · exact ha
        · rfl
  | lockLoad p => simp only [stepOf]; split <;> rfl
  | lockCas p i => simp only [stepOf]; split <;> rfl
  | word p i => simp only [stepOf]; split <;> rfl
  | seqno p => rfl
  | unlock p =>
    simp only [stepOf]
    cases p
    · rfl
    · exact ha
  | deliver pc => exact refusing_step _ _ hs _ hp (hidx _) hb
  | refused => rfl

/-- What every reachable state satisfies when all numbers are small. -/
structure Good (tasks : Nat → Task) (σ : Sys) : Prop where
  lock : LockInv tasks σ
  narrow : ∀ t, (σ.pc t).narrow = true

theorem step_good (tasks : Nat → Task) (hsmall : ∀ t, (tasks t).seqno < 256) (σ : Sys)
    (hg : Good tasks σ) (t : Nat) : Good tasks (σ.step tasks t) := by
  refine ⟨step_lock tasks σ hg.lock t, ?_⟩
  intro u
  simp only [Sys.step]
  split
  · exact stepOf_narrow σ _ (hsmall t) _ (hg.narrow t) hg.lock.idx
  · exact hg.narrow u

theorem run_good (tasks : Nat → Task) (hsmall : ∀ t, (tasks t).seqno < 256) (σ : Sys)
    (hg : Good tasks σ) (sched : List Nat) : Good tasks (σ.run tasks sched) := by
  induction sched generalizing σ with
  | nil => exact hg
  | cons t ts ih => exact ih _ (step_good tasks hsmall σ hg t)

theorem init_good (tasks : Nat → Task) (d : Nat) : Good tasks (Sys.init d) :=
  ⟨init_lock tasks d, fun _ => rfl⟩

/-- Task `c` is about to clear a word of the history `p` at a moment when task `a` has been accepted. -/
def WipedAfter (tasks : Nat → Task) (σ : Sys) (a : Nat) (p : Bool) (sched : List Nat) : Prop :=
  ∃ (s₁ : List Nat) (c : Nat) (s₂ : List Nat), sched = s₁ ++ c :: s₂ ∧
    (σ.run tasks s₁).accepted a ∧ ∃ i, (σ.run tasks s₁).pc c = .word p i

theorem wipedAfter_cons {tasks : Nat → Task} {σ : Sys} {a : Nat} {p : Bool} {t : Nat}
    {ts : List Nat} (h : WipedAfter tasks (σ.step tasks t) a p ts) :
    WipedAfter tasks σ a p (t :: ts) := by
  obtain ⟨s₁, c, s₂, e, h1, h2⟩ := h
  exact ⟨t :: s₁, c, s₂, by simp [e], h1, h2⟩

/-- A recorded task that is not alone in writing has returned. -/
theorem accepted_of_recorded (tasks : Nat → Task) (σ : Sys) (hg : Good tasks σ) (a c i : Nat)
    (hr : (σ.pc a).recorded = true) (hc : σ.pc c = .word (tasks a).priority i) : σ.accepted a := by
  have hm := hg.lock.mutex (tasks a).priority a c
  cases h : σ.pc a with
  | deliver pc =>
    rw [h] at hr
    have hcw : (σ.pc c).writing (tasks c) (tasks a).priority = true := by simp [hc, Pc.writing]
    have hca : a ≠ c := by
      rintro rfl
      rw [h] at hc; cases hc
    cases pc with
    | done r =>
      cases r
      · simp [Pc.recorded, PC.past] at hr
      · exact h
    | readSeq i n => exact absurd (hm (by simp [h, Pc.writing, locked]) hcw) hca
    | storeSeq i n => exact absurd (hm (by simp [h, Pc.writing, locked]) hcw) hca
    | unlock i n => exact absurd (hm (by simp [h, Pc.writing, locked]) hcw) hca
    | _ => simp [Pc.recorded, PC.past] at hr
  | _ => rw [h] at hr; simp [Pc.recorded] at hr

/-- One step: either it clears a word after `a` was accepted, or `a`'s number stays recorded. -/
theorem step_keeps (tasks : Nat → Task) (hsmall : ∀ t, (tasks t).seqno < 256) (σ : Sys)
    (hg : Good tasks σ) (a t : Nat)
    (hr : (σ.pc a).recorded = true →
      bitOf (σ.hist (tasks a).priority) (tasks a).seqno = true) :
    WipedAfter tasks σ a (tasks a).priority [t] ∨
    (((σ.step tasks t).pc a).recorded = true →
      bitOf ((σ.step tasks t).hist (tasks a).priority) (tasks a).seqno = true) := by
  by_cases hw : (σ.pc a).recorded = true ∧ ∃ i, σ.pc t = .word (tasks a).priority i
  · obtain ⟨h1, i, h2⟩ := hw
    exact .inl ⟨[], t, [], rfl, accepted_of_recorded tasks σ hg a t i h1 h2, i, h2⟩
  · right
    intro h2
    by_cases h1 : (σ.pc a).recorded = true
    · exact stepOf_bits σ _ (hsmall t) _ (hg.lock.shape t) (hg.narrow t) _
        (fun i hi => hw ⟨h1, i, hi⟩) _ (hsmall a) (hr h1)
    · by_cases e : a = t
      · subst e
        simp only [Sys.step, if_true] at h2 ⊢
        exact stepOf_records σ _ (hsmall a) _ (hg.lock.shape a) (hg.narrow a) (by simpa using h1) h2
      · simp only [Sys.step, e, if_false] at h2
        exact absurd h2 h1

theorem run_keeps (tasks : Nat → Task) (hsmall : ∀ t, (tasks t).seqno < 256) (a : Nat) :
    ∀ (sched : List Nat) (σ : Sys), Good tasks σ →
    ((σ.pc a).recorded = true →
      bitOf (σ.hist (tasks a).priority) (tasks a).seqno = true) →
    WipedAfter tasks σ a (tasks a).priority sched ∨
    (((σ.run tasks sched).pc a).recorded = true →
      bitOf ((σ.run tasks sched).hist (tasks a).priority) (tasks a).seqno = true) := by
  intro sched
  induction sched with
  | nil => intro σ _ hr; exact .inr hr
  | cons t ts ih =>
    intro σ hg hr
    rcases step_keeps tasks hsmall σ hg a t hr with h | h
    · obtain ⟨s₁, c, s₂, e, h1, h2⟩ := h
      left
      exact ⟨s₁, c, s₂ ++ ts, by simpa using congrArg (· ++ ts) e, h1, h2⟩
    · rcases ih _ (step_good tasks hsmall σ hg t) h with h' | h'
      · exact .inl (wipedAfter_cons h')
      · exact .inr h'

theorem run_refuses (tasks : Nat → Task) (hsmall : ∀ t, (tasks t).seqno < 256) (a b : Nat)
    (hseq : (tasks b).seqno = (tasks a).seqno) (hpri : (tasks b).priority = (tasks a).priority) :
    ∀ (sched : List Nat) (σ : Sys), Good tasks σ → (σ.pc a).recorded = true →
    bitOf (σ.hist (tasks a).priority) (tasks a).seqno = true → (σ.pc b).hopeless = true →
    WipedAfter tasks σ a (tasks a).priority sched ∨
    ((σ.run tasks sched).pc b).hopeless = true := by
  intro sched
  induction sched with
  | nil => intro σ _ _ _ h; exact .inr h
  | cons t ts ih =>
    intro σ hg hra hb hh
    rcases step_keeps tasks hsmall σ hg a t (fun _ => hb) with h | h
    · obtain ⟨s₁, c, s₂, e, h1, h2⟩ := h
      left
      exact ⟨s₁, c, s₂ ++ ts, by simpa using congrArg (· ++ ts) e, h1, h2⟩
    · have hra' : ((σ.step tasks t).pc a).recorded = true := by
        simp only [Sys.step]
        split
        · rename_i e; subst e; exact stepOf_recorded σ _ _ hra
        · exact hra
      have hh' : ((σ.step tasks t).pc b).hopeless = true := by
        simp only [Sys.step]
        split
        · rename_i e; subst e
          exact stepOf_hopeless σ _ (hsmall b) _ hh hg.lock.idx (by rw [hseq, hpri]; exact hb)
        · exact hh
      rcases ih _ (step_good tasks hsmall σ hg t) hra' (h hra') hh' with h' | h'
      · exact .inl (wipedAfter_cons h')
      · exact .inr h'

theorem run_append (tasks : Nat → Task) (σ : Sys) (xs ys : List Nat) :
    σ.run tasks (xs ++ ys) = (σ.run tasks xs).run tasks ys := by
  simp [Sys.run, List.foldl_append]

/-- The general form: from any good state in which neither task has begun. -/
theorem again_means_wiped (tasks : Nat → Task) (hsmall : ∀ t, (tasks t).seqno < 256) (σ : Sys)
    (hg : Good tasks σ) (a b : Nat) (hseq : (tasks b).seqno = (tasks a).seqno)
    (hpri : (tasks b).priority = (tasks a).priority) (pre post : List Nat)
    (hs : σ.pc a = .start)
    (ha : (σ.run tasks pre).accepted a) (hb : (σ.run tasks pre).pc b = .start)
    (hacc : (σ.run tasks (pre ++ post)).accepted b) :
    WipedAfter tasks σ a (tasks a).priority (pre ++ post) := by
  rcases run_keeps tasks hsmall a pre σ hg (by simp [hs, Pc.recorded]) with h | h
  · obtain ⟨s₁, c, s₂, e, h1, h2⟩ := h
    exact ⟨s₁, c, s₂ ++ post, by simp [e], h1, h2⟩
  · have hra : ((σ.run tasks pre).pc a).recorded = true := by
      rw [show (σ.run tasks pre).pc a = _ from ha]; rfl
    rcases run_refuses tasks hsmall a b hseq hpri post _ (run_good tasks hsmall σ hg pre) hra (h hra)
      (by rw [hb]; rfl) with h' | h'
    · obtain ⟨s₁, c, s₂, e, h1, h2⟩ := h'
      refine ⟨pre ++ s₁, c, s₂, by simp [e], ?_, ?_⟩
      · rw [run_append]; exact h1
      · rw [run_append]; exact h2
    · rw [run_append] at hacc
      rw [show ((σ.run tasks pre).run tasks post).pc b = _ from hacc] at h'
      simp [Pc.hopeless, PC.refusing] at h'

/-! ### The property -/

/-- C133, full statement: whatever the known date of the peer, the packets and the interleaving, a
dated packet whose number is below 256 and which was accepted by one task is not accepted again by a
task that starts later. **False in the code**, see `C133_full_false`. -/
def C133_full : Prop :=
  ∀ (tasks : Nat → Task) (date : Nat) (pre post : List Nat) (a b : Nat),
    (∀ t, (tasks t).seqno < 256) → (tasks a).date ≠ none → tasks b = tasks a →
    ((Sys.init date).run tasks pre).accepted a → ((Sys.init date).run tasks pre).pc b = .start →
    ¬ ((Sys.init date).run tasks (pre ++ post)).accepted b

/-- The first packets of a peer that was restarted: packet 1 of the new session (task 0), and packet 2
(task 1), which is sent once more by somebody else (any other task). -/
def restarted : Nat → Task := fun t => ⟨some 10, false, if t = 0 then 1 else 2, false⟩

/-- Task 0 has stored the new date and not yet reset the histories; packet 2 passes and is recorded. -/
def before : List Nat := [0, 0] ++ List.replicate 10 1

/-- Task 0 resets the histories; then the same packet 2 arrives again. -/
def afterwards : List Nat := List.replicate 24 0 ++ List.replicate 10 2

theorem C133_full_false : ¬ C133_full := by
  intro h
  exact h restarted 5 before afterwards 1 2 (by intro t; simp only [restarted]; split <;> decide)
    (by decide) rfl (by decide +kernel) (by decide +kernel) (by decide +kernel)

/-- What is needed for a second acceptance: after the first one, some task cleared a word of this
history, that is, a reset of the session was going on or came later. -/
theorem C133_again_means_reset_partial (tasks : Nat → Task) (hsmall : ∀ t, (tasks t).seqno < 256)
    (date : Nat) (pre post : List Nat) (a b : Nat)
    (hseq : (tasks b).seqno = (tasks a).seqno) (hpri : (tasks b).priority = (tasks a).priority)
    (ha : ((Sys.init date).run tasks pre).accepted a)
    (hb : ((Sys.init date).run tasks pre).pc b = .start)
    (hacc : ((Sys.init date).run tasks (pre ++ post)).accepted b) :
    ∃ (s₁ : List Nat) (c : Nat) (s₂ : List Nat), pre ++ post = s₁ ++ c :: s₂ ∧
      ((Sys.init date).run tasks s₁).accepted a ∧
      ∃ i, ((Sys.init date).run tasks s₁).pc c = .word (tasks a).priority i :=
  again_means_wiped tasks hsmall _ (init_good tasks date) a b hseq hpri pre post rfl ha hb hacc

/-- The task is not running: it has not begun or has come to its end. -/
def Pc.idle : Pc → Bool
  | .start | .refused | .deliver (.done _) => true
  | _ => false

/-- Nobody is resetting anything, and the dates seen are among `P`. -/
structure NoReset (P : Nat → Prop) (fresh : Nat → Prop) (σ : Sys) : Prop where
  date : P σ.date
  pc : ∀ t, match σ.pc t with
    | .start => fresh t
    | .loaded old => fresh t ∧ P old
    | .deliver _ | .refused => True
    | _ => False

theorem step_noReset (tasks : Nat → Task) (P fresh : Nat → Prop)
    (hP : ∀ t d old, fresh t → (tasks t).date = some d → P old → old < d → old = 0 ∧ P d)
    (σ : Sys) (h : NoReset P fresh σ) (t : Nat) : NoReset P fresh (σ.step tasks t) := by
  have key : P (stepOf σ (tasks t) (σ.pc t)).1.date ∧
      (match (stepOf σ (tasks t) (σ.pc t)).2 with
        | .start => fresh t
        | .loaded old => fresh t ∧ P old
        | .deliver _ | .refused => True
        | _ => False) := by
    have ht := h.pc t
    have hafter : (match afterDate (tasks t) with
        | .start => fresh t
        | .loaded old => fresh t ∧ P old
        | .deliver _ | .refused => True
        | _ => False) := by
      unfold afterDate; cases (tasks t).stale <;> trivial
    cases hpc : σ.pc t with
    | start =>
      rw [hpc] at ht
      simp only [stepOf]
      split
      · exact ⟨h.date, trivial⟩
      · exact ⟨h.date, ht, h.date⟩
    | loaded old =>
      rw [hpc] at ht
      simp only [stepOf]
      split
      · exact ⟨h.date, trivial⟩
      · rename_i d hd
        split
        · exact ⟨h.date, hafter⟩
        · split
          · rename_i hgt
            obtain ⟨h0, hd'⟩ := hP t d old ht.1 hd ht.2 hgt
            simp only [h0]
            exact ⟨hd', hafter⟩
          · exact ⟨h.date, trivial⟩
    | deliver pc => exact ⟨h.date, trivial⟩
    | refused => exact ⟨h.date, trivial⟩
    | lockLoad q => rw [hpc] at ht; exact ht.elim
    | lockCas q i => rw [hpc] at ht; exact ht.elim
    | word q i => rw [hpc] at ht; exact ht.elim
    | seqno q => rw [hpc] at ht; exact ht.elim
    | unlock q => rw [hpc] at ht; exact ht.elim
  refine ⟨key.1, ?_⟩
  intro u
  by_cases e : u = t
  · subst e
    have : (σ.step tasks u).pc u = (stepOf σ (tasks u) (σ.pc u)).2 := by simp [Sys.step]
    rw [this]; exact key.2
  · have : (σ.step tasks t).pc u = σ.pc u := by simp [Sys.step, e]
    rw [this]; exact h.pc u

theorem run_noReset (tasks : Nat → Task) (P fresh : Nat → Prop)
    (hP : ∀ t d old, fresh t → (tasks t).date = some d → P old → old < d → old = 0 ∧ P d)
    (sched : List Nat) :
    ∀ σ, NoReset P fresh σ → NoReset P fresh (σ.run tasks sched) := by
  induction sched with
  | nil => exact fun σ h => h
  | cons t ts ih => exact fun σ h => ih _ (step_noReset tasks P fresh hP σ h t)

/-- C133 within a session: at some moment (`before`, whatever happened until then: restarts, other
packets, any interleaving) no task is running. If the packets that come afterwards carry no date newer
than the known one, or it is the first contact (no date known) and they all carry the same date, then a
number below 256 accepted by one task is not accepted by a task that starts later, however all the
tasks interleave. Missing for the full property: packets arriving while a newer date is being
installed. -/
theorem C133_session_partial (tasks : Nat → Task) (hsmall : ∀ t, (tasks t).seqno < 256) (date : Nat)
    (earlier pre post : List Nat) (a b : Nat)
    (hidle : ∀ t, (((Sys.init date).run tasks earlier).pc t).idle = true)
    (hdates : (∀ t d, ((Sys.init date).run tasks earlier).pc t = .start → (tasks t).date = some d →
        d ≤ ((Sys.init date).run tasks earlier).date) ∨
      (((Sys.init date).run tasks earlier).date = 0 ∧ ∃ D, ∀ t d,
        ((Sys.init date).run tasks earlier).pc t = .start → (tasks t).date = some d → d = D))
    (hseq : (tasks b).seqno = (tasks a).seqno) (hpri : (tasks b).priority = (tasks a).priority)
    (hs : ((Sys.init date).run tasks earlier).pc a = .start)
    (ha : ((Sys.init date).run tasks (earlier ++ pre)).accepted a)
    (hb : ((Sys.init date).run tasks (earlier ++ pre)).pc b = .start) :
    ¬ ((Sys.init date).run tasks (earlier ++ pre ++ post)).accepted b := by
  intro hacc
  rw [List.append_assoc, run_append] at hacc
  rw [run_append] at ha hb
  generalize hσ : (Sys.init date).run tasks earlier = σ at *
  have hg : Good tasks σ := hσ ▸ run_good tasks hsmall _ (init_good tasks date) earlier
  obtain ⟨s₁, c, s₂, -, -, i, hw⟩ :=
    again_means_wiped tasks hsmall σ hg a b hseq hpri pre post hs ha hb hacc
  have fin : ∀ P : Nat → Prop, P σ.date →
      (∀ t d old, σ.pc t = .start → (tasks t).date = some d → P old → old < d → old = 0 ∧ P d) →
      False := by
    intro P hd hP
    have h0 : NoReset P (fun t => σ.pc t = .start) σ := by
      refine ⟨hd, ?_⟩
      intro t
      have := hidle t
      cases h : σ.pc t with
      | start => rfl
      | deliver pc => trivial
      | refused => trivial
      | _ => rw [h] at this; simp [Pc.idle] at this
    have := (run_noReset tasks P _ hP s₁ σ h0).pc c
    rw [hw] at this
    exact this
  rcases hdates with h | ⟨h0, D, h⟩
  · refine fin (fun x => x = σ.date) rfl ?_
    intro t d old ht hd ho hlt
    have := h t d ht hd
    omega
  · refine fin (fun x => x = 0 ∨ x = D) (.inl h0) ?_
    intro t d old ht hd ho hlt
    have := h t d ht hd
    omega

/-! ### Without overlap -/

/-- Whenever a task makes a step, no other task is in the middle of its work. -/
def Alone (tasks : Nat → Task) (σ : Sys) (sched : List Nat) : Prop :=
  ∀ (s₁ : List Nat) (t : Nat) (s₂ : List Nat), sched = s₁ ++ t :: s₂ →
    ∀ u, u ≠ t → ((σ.run tasks s₁).pc u).idle = true

/-- The task is resetting a history. -/
def Pc.resetting : Pc → Bool
  | .lockLoad _ | .lockCas _ _ | .word _ _ | .seqno _ | .unlock _ => true
  | _ => false

/-- The task is past the comparison of the dates and not at its end. -/
def Pc.past : Pc → Bool
  | .lockLoad _ | .lockCas _ _ | .word _ _ | .seqno _ | .unlock _ => true
  | .deliver (.done _) => false
  | .deliver _ => true
  | _ => false

structure SerialInv (tasks : Nat → Task) (a d : Nat) (σ : Sys) : Prop where
  loaded : ∀ t old, σ.pc t = .loaded old → old = σ.date
  dated : ∀ t e, (tasks t).date = some e → (σ.pc t).past = true → σ.date = e
  kept : (σ.pc a).recorded = true → d ≤ σ.date ∧
    (σ.date = d → bitOf (σ.hist (tasks a).priority) (tasks a).seqno = true)
  newer : (σ.pc a).recorded = true → ∀ t, (σ.pc t).resetting = true → d < σ.date
  undated : ∀ t, (tasks t).date = none → (σ.pc t).resetting = false

theorem afterDate_resetting (k : Task) : (afterDate k).resetting = false := by
  unfold afterDate; split <;> rfl

theorem setHist_date (σ : Sys) (p : Bool) (h : Hist) : (σ.setHist p h).date = σ.date := rfl

/-- What one step does to the date and where it leads. -/
theorem stepOf_dates (σ : Sys) (k : Task) (pc : Pc) (hl : ∀ old, pc = .loaded old → old = σ.date)
    (hd : ∀ e, k.date = some e → pc.past = true → σ.date = e)
    (hu : k.date = none → pc.resetting = false) :
    (∀ old, (stepOf σ k pc).2 = .loaded old → old = (stepOf σ k pc).1.date) ∧
    (∀ e, k.date = some e → (stepOf σ k pc).2.past = true → (stepOf σ k pc).1.date = e) ∧
    (k.date = none → (stepOf σ k pc).2.resetting = false) ∧
    (σ.date = (stepOf σ k pc).1.date ∨
      (σ.date < (stepOf σ k pc).1.date ∧ (stepOf σ k pc).2.recorded = false ∧
        pc.recorded = false)) ∧
    ((stepOf σ k pc).2.resetting = true → pc.resetting = true ∨
      σ.date < (stepOf σ k pc).1.date) := by
  have har : ∀ old, afterDate k ≠ .loaded old := by
    intro old; unfold afterDate; split <;> simp
  cases pc with
  | start =>
    simp only [stepOf]
    split
    · simp_all [Pc.resetting, Pc.recorded]
    · simp_all [Pc.resetting, Pc.recorded, Pc.past]
  | loaded old =>
    have := hl old rfl
    subst this
    simp only [stepOf]
    split
    · simp_all [Pc.resetting, Pc.recorded]
    · rename_i e he
      split
      · rename_i h
        subst h
        refine ⟨fun o h => absurd h (har o), ?_, by simp [he], .inl rfl,
          by simp [afterDate_resetting]⟩
        intro e' he' _
        simp_all
      · split
        · rename_i h
          split
          · simp [he, Pc.recorded, Pc.resetting]; omega
          · refine ⟨fun o h => absurd h (har o), by simp [he], by simp [he], .inr ⟨h,
              afterDate_recorded k, rfl⟩, by simp [afterDate_resetting]⟩
        · simp [he, Pc.recorded, Pc.resetting, Pc.past]
  | lockLoad q =>
    simp only [stepOf]
    split <;> simp_all [Pc.resetting, Pc.past]
  | lockCas q i =>
    simp only [stepOf]
    split <;> simp_all [Pc.resetting, Pc.past, setHist_date]
  | word q i =>
    by_cases h7 : i < 7
    · simp_all [stepOf, Pc.resetting, Pc.past, setHist_date]
    · simp only [stepOf, h7, if_false]
      simp_all [Pc.resetting, Pc.past, setHist_date]
  | seqno q => simp_all [stepOf, Pc.resetting, Pc.past, setHist_date]
  | unlock q =>
    have hdate : (stepOf σ k (.unlock q)).1.date = σ.date := by
      simp only [stepOf]; split <;> rfl
    have hnd : k.date ≠ none := fun h => by simpa [Pc.resetting] using hu h
    refine ⟨?_, ?_, fun h => absurd h hnd, .inl hdate.symm, fun _ => .inl rfl⟩
    · intro old h
      cases q
      · simp [stepOf] at h
      · exact absurd (by simpa [stepOf] using h) (har old)
    · intro e he _
      rw [hdate]; exact hd e he rfl
  | deliver pc =>
    refine ⟨by simp [stepOf], ?_, fun _ => rfl, .inl rfl, by simp [stepOf, Pc.resetting]⟩
    intro e he hp
    apply hd e he
    cases pc with
    | done r => simp [stepOf, stepPC, Pc.past] at hp
    | _ => rfl
  | refused => simp [stepOf, Pc.resetting, Pc.past]

theorem idle_facts {pc : Pc} (h : pc.idle = true) :
    (∀ old, pc ≠ .loaded old) ∧ pc.past = false ∧ pc.resetting = false := by
  cases pc with
  | deliver pc => cases pc <;> simp_all [Pc.idle, Pc.past, Pc.resetting]
  | _ => simp_all [Pc.idle, Pc.past, Pc.resetting]

theorem step_serial (tasks : Nat → Task) (hsmall : ∀ t, (tasks t).seqno < 256) (a d : Nat)
    (had : (tasks a).date = some d) (σ : Sys) (hg : Good tasks σ) (hi : SerialInv tasks a d σ)
    (t : Nat) (halone : ∀ u, u ≠ t → (σ.pc u).idle = true) :
    SerialInv tasks a d (σ.step tasks t) := by
  obtain ⟨f1, f2, f3, f4, f5⟩ := stepOf_dates σ (tasks t) (σ.pc t) (hi.loaded t) (hi.dated t)
    (hi.undated t)
  have hpt : (σ.step tasks t).pc t = (stepOf σ (tasks t) (σ.pc t)).2 := by simp [Sys.step]
  have hpu : ∀ u, u ≠ t → (σ.step tasks t).pc u = σ.pc u := by
    intro u hu; simp [Sys.step, hu]
  have hdate : (σ.step tasks t).date = (stepOf σ (tasks t) (σ.pc t)).1.date := rfl
  have hhist : (σ.step tasks t).hist = (stepOf σ (tasks t) (σ.pc t)).1.hist := rfl
  refine ⟨?_, ?_, ?_, ?_, ?_⟩
  · intro u old h
    by_cases e : u = t
    · subst e; rw [hpt] at h; rw [hdate]; exact f1 old h
    · rw [hpu u e] at h; exact absurd h ((idle_facts (halone u e)).1 old)
  · intro u x hx h
    by_cases e : u = t
    · subst e; rw [hpt] at h; rw [hdate]; exact f2 x hx h
    · rw [hpu u e, (idle_facts (halone u e)).2.1] at h; cases h
  · intro h
    rw [hdate, hhist]
    by_cases hr : (σ.pc a).recorded = true
    · obtain ⟨h1, h2⟩ := hi.kept hr
      rcases f4 with f4 | ⟨f4, -⟩
      · refine ⟨by omega, fun hd => ?_⟩
        apply stepOf_bits σ _ (hsmall t) _ (hg.lock.shape t) (hg.narrow t) _ ?_ _ (hsmall a)
          (h2 (by omega))
        intro i hw
        have := hi.newer hr t (by rw [hw]; rfl)
        omega
      · exact ⟨by omega, fun hd => by omega⟩
    · by_cases e : a = t
      · subst e
        rw [hpt] at h
        have hb := stepOf_records σ _ (hsmall a) _ (hg.lock.shape a) (hg.narrow a)
          (by simpa using hr) h
        have hp : (σ.pc a).past = true := by
          cases hpc : σ.pc a with
          | deliver pc =>
            cases pc with
            | done r => rw [hpc] at h hr; exact absurd h hr
            | _ => rfl
          | start => rw [hpc] at h; simp only [stepOf] at h; split at h <;> simp [Pc.recorded, PC.past] at h
          | refused => rw [hpc] at h; simp [stepOf, Pc.recorded] at h
          | loaded old =>
            rw [hpc] at h
            have ha := afterDate_recorded (tasks a)
            simp only [stepOf] at h
            split at h
            · simp [Pc.recorded, PC.past] at h
            · split at h
              · rw [ha] at h; cases h
              · split at h
                · simp only at h
                  split at h
                  · simp [Pc.recorded] at h
                  · rw [ha] at h; cases h
                · simp [Pc.recorded] at h
          | _ => rfl
        have hdd := hi.dated a d had hp
        have hsame : (stepOf σ (tasks a) (σ.pc a)).1.date = σ.date := by
          rcases f4 with f4 | ⟨-, f4, -⟩
          · exact f4.symm
          · rw [f4] at h; cases h
        exact ⟨by omega, fun _ => hb⟩
      · rw [hpu a e] at h; exact absurd h hr
  · intro h u hu
    rw [hdate]
    by_cases e : u = t
    · subst e
      rw [hpt] at hu
      have hau : a ≠ u := by
        rintro rfl
        rw [hpt] at h
        cases hx : (stepOf σ (tasks a) (σ.pc a)).2 <;> rw [hx] at h hu <;>
          simp [Pc.recorded, Pc.resetting] at h hu
      rw [hpu a hau] at h
      rcases f5 hu with h5 | h5
      · have := hi.newer h u h5
        rcases f4 with f4 | ⟨f4, -⟩ <;> omega
      · have := (hi.kept h).1
        omega
    · rw [hpu u e, (idle_facts (halone u e)).2.2] at hu; cases hu
  · intro u hu
    by_cases e : u = t
    · subst e; rw [hpt]; exact f3 hu
    · rw [hpu u e]; exact (idle_facts (halone u e)).2.2

theorem alone_cons {tasks : Nat → Task} {σ : Sys} {t : Nat} {ts : List Nat}
    (h : Alone tasks σ (t :: ts)) :
    (∀ u, u ≠ t → (σ.pc u).idle = true) ∧ Alone tasks (σ.step tasks t) ts :=
  ⟨h [] t ts rfl, fun s₁ u s₂ e => h (t :: s₁) u s₂ (by simp [e])⟩

theorem run_serial (tasks : Nat → Task) (hsmall : ∀ t, (tasks t).seqno < 256) (a d : Nat)
    (had : (tasks a).date = some d) : ∀ (sched : List Nat) (σ : Sys), Good tasks σ →
    SerialInv tasks a d σ → Alone tasks σ sched → SerialInv tasks a d (σ.run tasks sched) := by
  intro sched
  induction sched with
  | nil => exact fun σ _ h _ => h
  | cons t ts ih =>
    intro σ hg hi hal
    obtain ⟨h1, h2⟩ := alone_cons hal
    exact ih _ (step_good tasks hsmall σ hg t) (step_serial tasks hsmall a d had σ hg hi t h1) h2

theorem run_serial_refuses (tasks : Nat → Task) (hsmall : ∀ t, (tasks t).seqno < 256) (a b d : Nat)
    (had : (tasks a).date = some d) (hbd : (tasks b).date = some d)
    (hseq : (tasks b).seqno = (tasks a).seqno) (hpri : (tasks b).priority = (tasks a).priority) :
    ∀ (sched : List Nat) (σ : Sys), Good tasks σ → SerialInv tasks a d σ → Alone tasks σ sched →
    (σ.pc a).recorded = true → (σ.pc b).hopeless = true →
    ((σ.run tasks sched).pc b).hopeless = true := by
  intro sched
  induction sched with
  | nil => exact fun σ _ _ _ _ h => h
  | cons t ts ih =>
    intro σ hg hi hal hr hh
    obtain ⟨h1, h2⟩ := alone_cons hal
    refine ih _ (step_good tasks hsmall σ hg t) (step_serial tasks hsmall a d had σ hg hi t h1) h2
      ?_ ?_
    · simp only [Sys.step]
      split
      · rename_i e; subst e; exact stepOf_recorded σ _ _ hr
      · exact hr
    · simp only [Sys.step]
      split
      · rename_i e
        subst e
        by_cases hp : (σ.pc b).past = true
        · have hdd := hi.dated b d hbd hp
          exact stepOf_hopeless σ _ (hsmall b) _ hh hg.lock.idx
            (by rw [hseq, hpri]; exact (hi.kept hr).2 hdd)
        · cases hpc : σ.pc b with
          | deliver pc =>
            rw [hpc] at hp hh
            cases pc with
            | done r => exact hh
            | _ => simp [Pc.past] at hp
          | start => simp only [stepOf]; split <;> rfl
          | loaded old =>
            have ha : (afterDate (tasks b)).hopeless = true := by unfold afterDate; split <;> rfl
            simp only [stepOf]
            split
            · rfl
            · split
              · exact ha
              · split
                · split
                  · rfl
                  · exact ha
                · rfl
          | refused => rfl
          | _ => rw [hpc] at hp; simp [Pc.past] at hp
      · exact hh

/-- C133 for tasks that do not overlap: if no task starts before the one before it is through, a dated
packet with a number below 256 is accepted once, whatever dates the packets carry and whatever date is
known. (So the failure in `C133_full_false` is one of tasks running at the same time.) -/
theorem C133_one_after_another_partial (tasks : Nat → Task) (hsmall : ∀ t, (tasks t).seqno < 256)
    (date : Nat) (pre post : List Nat) (a b : Nat)
    (halone : Alone tasks (Sys.init date) (pre ++ post))
    (hdated : (tasks a).date ≠ none) (hsame : tasks b = tasks a)
    (ha : ((Sys.init date).run tasks pre).accepted a)
    (hb : ((Sys.init date).run tasks pre).pc b = .start) :
    ¬ ((Sys.init date).run tasks (pre ++ post)).accepted b := by
  intro hacc
  obtain ⟨d, hd⟩ := Option.ne_none_iff_exists'.mp hdated
  have hi0 : SerialInv tasks a d (Sys.init date) :=
    ⟨by intro t old h; simp [Sys.init] at h, by intro t e _ h; simp [Sys.init, Pc.past] at h,
      by intro h; simp [Sys.init, Pc.recorded] at h, by intro h; simp [Sys.init, Pc.recorded] at h,
      by intro t _; rfl⟩
  have hal1 : Alone tasks (Sys.init date) pre := fun s₁ t s₂ e =>
    halone s₁ t (s₂ ++ post) (by simp [e])
  have hal2 : Alone tasks ((Sys.init date).run tasks pre) post := by
    intro s₁ t s₂ e u hu
    have := halone (pre ++ s₁) t s₂ (by simp [e]) u hu
    rwa [run_append] at this
  have := run_serial_refuses tasks hsmall a b d hd (by rw [hsame]; exact hd) (by rw [hsame])
    (by rw [hsame]) post _ (run_good tasks hsmall _ (init_good tasks date) pre)
    (run_serial tasks hsmall a d hd pre _ (init_good tasks date) hi0 hal1) hal2
    (by rw [show ((Sys.init date).run tasks pre).pc a = _ from ha]; rfl) (by rw [hb]; rfl)
  rw [run_append] at hacc
  rw [show (((Sys.init date).run tasks pre).run tasks post).pc b = _ from hacc] at this
  simp [Pc.hopeless, PC.refusing] at this

theorem run_untouched (tasks : Nat → Task) (u : Nat) : ∀ (sched : List Nat) (σ : Sys), u ∉ sched →
    (σ.run tasks sched).pc u = σ.pc u := by
  intro sched
  induction sched with
  | nil => exact fun σ _ => rfl
  | cons t ts ih =>
    intro σ h
    simp only [List.mem_cons, not_or] at h
    have e : (σ.step tasks t).pc u = σ.pc u := by simp [Sys.step, h.1]
    exact (ih (σ.step tasks t) h.2).trans e

/-- The packets of the restarted peer one after another: packet 1, which resets the histories, packet
2, and packet 2 again. -/
def oneByOne : List Nat := List.replicate 36 0 ++ List.replicate 10 1

/-- Non-vacuity of `C133_one_after_another_partial`. -/
example : ¬ ((Sys.init 5).run restarted (oneByOne ++ List.replicate 10 2)).accepted 2 := by
  refine C133_one_after_another_partial restarted
    (by intro t; simp only [restarted]; split <;> decide) 5 oneByOne (List.replicate 10 2) 1 2
    ?_ (by decide) rfl (by decide +kernel) (by decide +kernel)
  have key : ∀ n < 56, ∀ u < 3, some u ≠ (oneByOne ++ List.replicate 10 2)[n]? →
      (((Sys.init 5).run restarted ((oneByOne ++ List.replicate 10 2).take n)).pc u).idle = true := by
    decide +kernel
  intro s₁ t s₂ e u hu
  have hlen : s₁.length < 56 := by
    have := congrArg List.length e
    simp [oneByOne] at this
    omega
  have ht : (oneByOne ++ List.replicate 10 2)[s₁.length]? = some t := by rw [e]; simp
  have hs : (oneByOne ++ List.replicate 10 2).take s₁.length = s₁ := by rw [e]; simp
  by_cases h3 : u < 3
  · have := key s₁.length hlen u h3 (by rw [ht]; simpa using hu)
    rwa [hs] at this
  · rw [run_untouched]
    · rfl
    · intro hm
      have : u ∈ oneByOne ++ List.replicate 10 2 := by rw [e]; simp [hm]
      simp [oneByOne] at this
      omega

/-- Non-vacuity: a peer known with date 10; packet 2 is accepted by task 1 while packet 1 is being
handled by task 0, and refused in task 2. -/
example : ¬ ((Sys.init 10).run restarted ([] ++ before ++ List.replicate 10 2)).accepted 2 :=
  C133_session_partial restarted (by intro t; simp only [restarted]; split <;> decide) 10 [] before
    (List.replicate 10 2) 1 2 (fun _ => rfl)
    (.inl (by intro t d _ hd; cases hd; decide)) rfl rfl rfl (by decide +kernel) (by decide +kernel)

/-- The same for the first contact. -/
example : ¬ ((Sys.init 0).run restarted ([] ++ before ++ List.replicate 10 2)).accepted 2 :=
  C133_session_partial restarted (by intro t; simp only [restarted]; split <;> decide) 0 [] before
    (List.replicate 10 2) 1 2 (fun _ => rfl)
    (.inr ⟨rfl, 10, by intro t d _ hd; cases hd; rfl⟩) rfl rfl rfl (by decide +kernel)
    (by decide +kernel)

/-- Non-vacuity of `C133_again_means_reset_partial`: the run of `C133_full_false`. -/
example : ∃ (s₁ : List Nat) (c : Nat) (s₂ : List Nat), before ++ afterwards = s₁ ++ c :: s₂ ∧
    ((Sys.init 5).run restarted s₁).accepted 1 ∧
    ∃ i, ((Sys.init 5).run restarted s₁).pc c = .word false i :=
  C133_again_means_reset_partial restarted (by intro t; simp only [restarted]; split <;> decide) 5
    before afterwards 1 2 rfl rfl (by decide +kernel) (by decide +kernel) (by decide +kernel)

/-- Non-vacuity of `C133_one_writer`: a task does write. -/
example : (((Sys.init 5).run restarted [0, 0, 0, 0]).pc 0).writing (restarted 0) false = true := by
  decide +kernel

end Verif.ReceiveConc
