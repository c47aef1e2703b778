import Verif.Model.RldpSender
import Mathlib.Data.List.Perm.Subperm
import Verif.Props.RldpSystem

/-!
# C40, C59: the sending window
-/
namespace Verif.Rldp

/-- Numbering of repair symbols: at or above the source symbols and the requested number, increasing. -/
structure Fec.Numbered (f : Fec) : Prop where
  ge_count : ∀ d s, f.count d ≤ f.repairId d s
  ge_self : ∀ d s, s ≤ f.repairId d s
  strict : ∀ d s s', s < s' → f.repairId d s < f.repairId d s'

theorem Fec.toy_numbered : Fec.toy.Numbered where
  ge_count := fun _ _ => Nat.le_add_right _ _
  ge_self := fun _ _ => Nat.le_add_left _ _
  strict := fun _ _ _ h => Nat.add_lt_add_left h _

/-! ### The full claim fails -/

/-- C40: the next chunk can always be produced without a panic. -/
def C40_full : Prop := ∀ (f : Fec), f.Lawful → f.Numbered → ∀ (data : Bytes) (as : List SAct) (p : Nat),
  ((Snd.init data).run f .debug as).phase = .sending p →
    (((Snd.init data).run f .debug as).out.prepareChunk f .debug).2 ≠ .panic

/-- Two symbols of part 0, a confirmation of the second, completion of part 0; then part 1 begins. -/
def partSwitch : List SAct :=
  [.begin, .bind, .chunk, .chunk, .ack (.confirm 0 1), .ack (.complete 0), .check, .begin, .bind]

theorem partSwitch_run (data : Bytes) (hl : data.length = 2000001) :
    ((Snd.init data).run Fec.toy .debug partSwitch).phase = .sending 1 ∧
    ((Snd.init data).run Fec.toy .debug partSwitch).out.st.seqnoIn = 1 ∧
    ((Snd.init data).run Fec.toy .debug partSwitch).out.enc = some ⟨partData data 1, 0⟩ := by
  have c0 : Fec.toy.count (partData data 0) = 2605 := by
    show ((partData data 0).length + 767) / 768 = 2605
    rw [partData_length, hl]
    decide
  have c1 : Fec.toy.count (partData data 1) = 1 := by
    show ((partData data 1).length + 767) / 768 = 1
    rw [partData_length, hl]
    decide
  have hne : data ≠ [] := by intro e; rw [e] at hl; exact absurd hl (by decide)
  have hgt : ¬ data.length ≤ sliceLen := by rw [hl]; decide
  clear hl
  simp [Snd.run, Snd.init, partSwitch, Snd.step, Snd.begin, Snd.chunk, Snd.check, Outgoing.new,
    Outgoing.startNextPart, Outgoing.isFinished, Outgoing.prepareChunk, Enc.encode, hne, hgt, c0, c1,
    subU32, addU32, window, OutState.setSeqnoOut, Phase.running, OutState.ack, OutState.confirm,
    OutState.setSeqnoIn, OutState.complete, OutState.setPart, Outgoing.finishedOrNext]

/-- `seqno_in` is kept when the next part begins, whose symbols are numbered from 0 again. -/
theorem C40_full_false : ¬ C40_full := by
  intro h
  obtain ⟨data, hl⟩ : ∃ data : Bytes, data.length = 2000001 := ⟨List.replicate 2000001 0, List.length_replicate⟩
  obtain ⟨h1, h2, h3⟩ := partSwitch_run data hl
  have hc : 0 < Fec.toy.count (partData data 1) :=
    Fec.toy_lawful.count_pos _ (partData_ne_nil (by rw [hl]; decide))
  refine h Fec.toy Fec.toy_lawful Fec.toy_numbered data partSwitch 1 h1 ?_
  generalize (Snd.init data).run Fec.toy .debug partSwitch = s at h2 h3 ⊢
  unfold Outgoing.prepareChunk
  rw [h3]
  simp only [Enc.encode, if_pos hc, h2]
  have : subU32 .debug 0 1 = none := by decide
  rw [this]

/-! ### Exactly when it panics -/

/-- Debug: the chunk panics exactly when its number is below `seqno_in`, or the number itself cannot be
incremented. -/
theorem C40_panic_iff_partial (f : Fec) (t : Outgoing) (n : Nat) (hn : t.nextNumber f = some n) :
    (t.prepareChunk f .debug).2 = .panic ↔
      n < t.st.seqnoIn ∨ (n - t.st.seqnoIn ≤ 1000 ∧ t.st.seqnoOut = n ∧ 2 ^ 32 ≤ n + 1) := by
  change _ ↔ n < t.st.seqnoIn ∨ (n - t.st.seqnoIn ≤ window ∧ t.st.seqnoOut = n ∧ 2 ^ 32 ≤ n + 1)
  unfold Outgoing.nextNumber at hn
  cases he : t.enc with
  | none => rw [he] at hn; cases hn
  | some e =>
    rw [he] at hn
    have hn' : (e.encode f t.st.seqnoOut).1 = n := by simpa using hn
    unfold Outgoing.prepareChunk
    rw [he]
    simp only [hn']
    by_cases h1 : t.st.seqnoIn ≤ n
    · have e1 : subU32 .debug n t.st.seqnoIn = some (n - t.st.seqnoIn) := if_pos h1
      rw [e1]
      simp only
      by_cases h2 : n - t.st.seqnoIn ≤ window
      · rw [if_pos h2]
        by_cases h3 : t.st.seqnoOut = n
        · rw [if_pos h3]
          by_cases h4 : n + 1 < 2 ^ 32
          · have e2 : addU32 .debug n 1 = some (n + 1) := if_pos h4
            rw [e2]
            simp only [reduceCtorEq, false_iff]
            omega
          · have e2 : addU32 .debug n 1 = none := if_neg h4
            rw [e2]
            simp only [true_iff]
            exact .inr ⟨h2, h3, by omega⟩
        · rw [if_neg h3]
          simp only [reduceCtorEq, false_iff]
          omega
      · rw [if_neg h2]
        simp only [reduceCtorEq, false_iff]
        omega
    · have e1 : subU32 .debug n t.st.seqnoIn = none := if_neg h1
      rw [e1]
      simp only [true_iff]
      exact .inl (by omega)

/-- Release: it never panics. -/
theorem C40_release_partial (f : Fec) (t : Outgoing) : (t.prepareChunk f .release).2 ≠ .panic := by
  unfold Outgoing.prepareChunk
  cases t.enc with
  | none => intro h; cases h
  | some e =>
    simp only
    split
    · rename_i h
      unfold subU32 at h
      split at h <;> cases h
    · split
      · split
        · split
          · rename_i h
            unfold addU32 at h
            split at h <;> cases h
          · intro h; cases h
        · intro h; cases h
      · intro h; cases h

/-! ### Transfers of a single part -/

/-- Invariant: confirmations never exceed what was sent. -/
structure Single (f : Fec) (s : Snd) : Prop where
  one : s.out.data.length ≤ sliceLen
  le : s.out.st.seqnoIn ≤ s.out.st.seqnoOut
  fresh : s.phase = .start → s.out.isFinished = true ∨ s.out.st.part ≠ 0 ∨ s.out.st.seqnoOut = 0
  src : ∀ e, s.out.enc = some e → e.next < f.count e.data → s.out.st.seqnoOut ≤ e.next

theorem ack_seqno (build : Build) (st : OutState) (a : Ack) :
    (st.ack build a).seqnoOut = st.seqnoOut ∧
    (st.seqnoIn ≤ st.seqnoOut → (st.ack build a).seqnoIn ≤ st.seqnoOut) := by
  cases a with
  | confirm p n =>
    simp only [OutState.ack, OutState.confirm, OutState.setSeqnoIn]
    split
    · split
      · exact ⟨rfl, id⟩
      · exact ⟨rfl, fun h => by simp only; omega⟩
    · exact ⟨rfl, id⟩
  | complete q =>
    simp only [OutState.ack, OutState.complete]
    cases addU32 build q 1 with
    | none => exact ⟨rfl, id⟩
    | some p =>
      simp only [OutState.setPart]
      cases subU32 build p 1 with
      | none => exact ⟨rfl, id⟩
      | some q' => simp only [Option.getD]; split <;> exact ⟨rfl, id⟩

/-- With the peer's arbitrary confirmations the part number may wrap in release builds only. -/
theorem ack_part (st : OutState) (a : Ack) :
    (st.ack .debug a).hasReply = st.hasReply ∧ st.part ≤ (st.ack .debug a).part := by
  refine ⟨(ack_spec .debug st a).1, ?_⟩
  rcases (ack_spec .debug st a).2 with e | ⟨q, e, h⟩
  · omega
  · subst e
    by_cases hq : q + 1 < 2 ^ 32
    · have := h hq; omega
    · have e1 : addU32 .debug q 1 = none := if_neg hq
      simp only [OutState.ack, OutState.complete, e1, Option.getD]
      omega

theorem single_step (f : Fec) (s : Snd) (h : Single f s) (a : SAct) :
    Single f (s.step f .debug a) := by
  cases a with
  | begin =>
    simp only [Snd.step]
    split
    · rename_i hp
      unfold Snd.begin Outgoing.startNextPart
      cases hfin : s.out.isFinished with
      | true => exact ⟨h.one, h.le, fun h => (by cases h), h.src⟩
      | false =>
        rw [if_neg (by decide)]
        by_cases hle : s.out.data.length ≤ s.out.st.part * sliceLen
        · rw [if_pos hle]
          exact ⟨h.one, h.le, fun h => (by cases h), h.src⟩
        · rw [if_neg hle]
          have h0 : s.out.st.part = 0 := by
            rcases Nat.eq_zero_or_pos s.out.st.part with e | e
            · exact e
            · have := Nat.mul_le_mul_right sliceLen e
              have := h.one
              omega
          have hso : s.out.st.seqnoOut = 0 := by
            rcases h.fresh hp with e | e | e
            · rw [hfin] at e; cases e
            · exact absurd h0 e
            · exact e
          split
          · rename_i heq
            have e1 := congrArg Prod.fst heq
            subst e1
            refine ⟨h.one, h.le, fun h => (by cases h), fun e he _ => ?_⟩
            cases he
            exact Nat.le_of_eq hso
          · rename_i heq
            have e1 := congrArg Prod.fst heq
            subst e1
            refine ⟨h.one, h.le, fun h => (by cases h), fun e he _ => ?_⟩
            cases he
            exact Nat.le_of_eq hso
    · exact h
  | bind =>
    simp only [Snd.step]
    split
    · exact ⟨h.one, h.le, fun h => (by cases h), h.src⟩
    · exact h
  | chunk =>
    simp only [Snd.step]
    split
    · rename_i p hp
      unfold Snd.chunk
      cases he : s.out.enc with
      | none =>
        have e1 : s.out.prepareChunk f .debug = (s.out, .notReady) := by
          unfold Outgoing.prepareChunk; rw [he]
        rw [e1]
        exact ⟨h.one, h.le, fun h => (by cases h), h.src⟩
      | some e =>
        have key : (s.out.prepareChunk f .debug).1.data = s.out.data ∧
            (s.out.prepareChunk f .debug).1.st.seqnoIn = s.out.st.seqnoIn ∧
            s.out.st.seqnoOut ≤ (s.out.prepareChunk f .debug).1.st.seqnoOut ∧
            (s.out.prepareChunk f .debug).1.enc = some (e.encode f s.out.st.seqnoOut).2 ∧
            ((s.out.prepareChunk f .debug).1.st.seqnoOut = s.out.st.seqnoOut ∨
              (s.out.prepareChunk f .debug).1.st.seqnoOut =
                max s.out.st.seqnoOut (e.encode f s.out.st.seqnoOut).1 ∨
              (s.out.prepareChunk f .debug).1.st.seqnoOut =
                max s.out.st.seqnoOut ((e.encode f s.out.st.seqnoOut).1 + 1)) := by
          unfold Outgoing.prepareChunk
          rw [he]
          simp only
          split
          · exact ⟨rfl, rfl, Nat.le_refl _, rfl, .inl rfl⟩
          · split
            · split
              · split
                · exact ⟨rfl, rfl, Nat.le_refl _, rfl, .inl rfl⟩
                · rename_i n' ha
                  have : n' = (e.encode f s.out.st.seqnoOut).1 + 1 := by
                    unfold addU32 at ha
                    split at ha
                    · cases ha; rfl
                    · cases ha
                  subst this
                  exact ⟨rfl, rfl, Nat.le_max_left _ _, rfl, .inr (.inr rfl)⟩
              · exact ⟨rfl, rfl, Nat.le_max_left _ _, rfl, .inr (.inl rfl)⟩
            · exact ⟨rfl, rfl, Nat.le_refl _, rfl, .inl rfl⟩
        generalize s.out.prepareChunk f .debug = pc at key
        obtain ⟨o, c⟩ := pc
        obtain ⟨k1, k2, k3, k4, k5⟩ := key
        simp only at k1 k2 k3 k4 k5
        have hsrc : ∀ x, o.enc = some x → x.next < f.count x.data → o.st.seqnoOut ≤ x.next := by
          intro x hx hlt
          rw [k4] at hx
          cases hx
          unfold Enc.encode at hlt k5 ⊢
          by_cases hc : e.next < f.count e.data
          · rw [if_pos hc] at hlt k5 ⊢
            have := h.src e he hc
            simp only at k5 ⊢
            omega
          · rw [if_neg hc] at hlt
            exact absurd hlt hc
        have hle := h.le
        cases c with
        | part m =>
          exact ⟨by rw [k1]; exact h.one, by show o.st.seqnoIn ≤ o.st.seqnoOut; omega,
            fun hx => absurd (hp.symm.trans hx) (by simp), hsrc⟩
        | notReady =>
          exact ⟨by rw [k1]; exact h.one, by show o.st.seqnoIn ≤ o.st.seqnoOut; omega,
            fun hx => (by cases hx), hsrc⟩
        | panic =>
          exact ⟨by rw [k1]; exact h.one, by show o.st.seqnoIn ≤ o.st.seqnoOut; omega,
            fun hx => (by cases hx), hsrc⟩
    · exact h
  | check =>
    simp only [Snd.step]
    split
    · rename_i p hp
      unfold Snd.check
      cases hc : s.out.finishedOrNext .debug p with
      | no => exact h
      | mismatch => exact ⟨h.one, h.le, fun h => (by cases h), h.src⟩
      | panic => exact ⟨h.one, h.le, fun h => (by cases h), h.src⟩
      | yes =>
        refine ⟨h.one, h.le, fun _ => ?_, h.src⟩
        unfold Outgoing.finishedOrNext at hc
        by_cases hf : s.out.isFinished = true
        · exact .inl hf
        · rw [if_neg hf] at hc
          by_cases he : s.out.st.part = p
          · rw [if_pos he] at hc; cases hc
          · rw [if_neg he] at hc
            by_cases hlt : p + 1 < 2 ^ 32
            · have e1 : addU32 .debug p 1 = some (p + 1) := if_pos hlt
              rw [e1] at hc
              simp only at hc
              by_cases h2 : s.out.st.part = p + 1
              · exact .inr (.inl (by show s.out.st.part ≠ 0; omega))
              · rw [if_neg h2] at hc; cases hc
            · have e1 : addU32 .debug p 1 = none := if_neg hlt
              rw [e1] at hc
              cases hc
    · exact h
  | giveUp =>
    simp only [Snd.step]
    split
    · exact ⟨h.one, h.le, fun h => (by cases h), h.src⟩
    · exact h
  | reply =>
    refine ⟨h.one, h.le, fun hp => ?_, h.src⟩
    rcases h.fresh hp with e | e
    · exact .inl (isFinished_mono (t := s.out) rfl (fun _ => rfl) (Nat.le_refl _) e)
    · exact .inr e
  | ack a =>
    simp only [Snd.step]
    split
    · obtain ⟨a1, a2⟩ := ack_seqno .debug s.out.st a
      obtain ⟨a3, a4⟩ := ack_part s.out.st a
      refine ⟨h.one, ?_, fun hp => ?_, fun e he hlt => ?_⟩
      · show (s.out.st.ack .debug a).seqnoIn ≤ (s.out.st.ack .debug a).seqnoOut
        rw [a1]; exact a2 h.le
      · rcases h.fresh hp with e | e | e
        · exact .inl (isFinished_mono (t := s.out) rfl (fun hr => a3.trans hr) a4 e)
        · exact .inr (.inl (by show (s.out.st.ack .debug a).part ≠ 0; omega))
        · exact .inr (.inr (a1.trans e))
      · show (s.out.st.ack .debug a).seqnoOut ≤ e.next
        rw [a1]; exact h.src e he hlt
    · exact h

theorem single_run (f : Fec) (as : List SAct) : ∀ (s : Snd), Single f s →
    Single f (s.run f .debug as) := by
  induction as with
  | nil => intro s h; exact h
  | cons a as ih => intro s h; exact ih _ (single_step f s h a)

/-- A transfer of one part: whatever confirmations arrive and whenever, the number of the next symbol is
at least `seqno_in`, so the subtraction does not underflow. -/
theorem C40_single_part_partial (f : Fec) (hn : f.Numbered) (data : Bytes)
    (hd : data.length ≤ 2000000) (as : List SAct) (n : Nat)
    (hnext : ((Snd.init data).run f .debug as).out.nextNumber f = some n) :
    ((Snd.init data).run f .debug as).out.st.seqnoIn ≤ n ∧
    (n + 1 < 2 ^ 32 → (((Snd.init data).run f .debug as).out.prepareChunk f .debug).2 ≠ .panic) := by
  have h := single_run f as (Snd.init data)
    ⟨hd, Nat.le_refl _, fun _ => .inr (.inr rfl), fun _ h => by cases h⟩
  generalize (Snd.init data).run f .debug as = s at h hnext ⊢
  have hle : s.out.st.seqnoIn ≤ n := by
    unfold Outgoing.nextNumber at hnext
    cases he : s.out.enc with
    | none => rw [he] at hnext; cases hnext
    | some e =>
      rw [he] at hnext
      have hnx : (e.encode f s.out.st.seqnoOut).1 = n := by simpa using hnext
      unfold Enc.encode at hnx
      have := h.le
      by_cases hc : e.next < f.count e.data
      · rw [if_pos hc] at hnx
        have := h.src e he hc
        simp only at hnx
        omega
      · rw [if_neg hc] at hnx
        have := hn.ge_self e.data s.out.st.seqnoOut
        simp only at hnx
        omega
  refine ⟨hle, fun hlt hp => ?_⟩
  rcases (C40_panic_iff_partial f s.out n hnext).mp hp with h1 | h1 <;> omega

/-- A single-part transfer in which the second symbol was confirmed. -/
example : ((Snd.init (List.replicate 1000 7)).run Fec.toy .debug
    [.begin, .bind, .chunk, .chunk, .ack (.confirm 0 1)]).out.nextNumber Fec.toy = some 4 := by
  decide +kernel

/-! ### Fresh symbols -/

/-- Invariant: symbols sent for the part, relative to the next number. -/
structure FreshFor (f : Fec) (s : Snd) (e : Enc) : Prop where
  le : e.next ≤ f.count e.data
  source : e.next < f.count e.data → ∀ x ∈ s.sent, x < e.next
  repair : ¬ e.next < f.count e.data → ∀ x ∈ s.sent, x ≤ f.repairId e.data s.out.st.seqnoOut
  opened : ¬ e.next < f.count e.data → s.wasOpen = true →
    ∀ x ∈ s.sent, x < f.repairId e.data s.out.st.seqnoOut

def Fresh (f : Fec) (s : Snd) : Prop :=
  (∀ x ∈ s.sent, x + 1 < 2 ^ 32) → ∀ e, s.out.enc = some e → FreshFor f s e

theorem windowOpen_sub {build : Build} {t : Outgoing} {n : Nat} (h : t.windowOpen n = true) :
    subU32 build n t.st.seqnoIn = some (n - t.st.seqnoIn) ∧ n - t.st.seqnoIn ≤ window := by
  unfold Outgoing.windowOpen at h
  rw [Bool.and_eq_true, decide_eq_true_eq, decide_eq_true_eq] at h
  exact ⟨if_pos h.1, h.2⟩

/-- What `prepare_chunk` does to the counters. -/
theorem prepareChunk_seqno (f : Fec) (build : Build) (t : Outgoing) {e : Enc} (he : t.enc = some e) :
    (t.prepareChunk f build).1.enc = some (e.encode f t.st.seqnoOut).2 ∧
    (∀ m, (t.prepareChunk f build).2 = .part m → m.seqno = (e.encode f t.st.seqnoOut).1 ∧
      (m.seqno + 1 < 2 ^ 32 → t.st.seqnoOut ≤ (t.prepareChunk f build).1.st.seqnoOut ∧
        (t.windowOpen m.seqno = true → t.st.seqnoOut ≤ m.seqno →
          t.st.seqnoOut < (t.prepareChunk f build).1.st.seqnoOut))) := by
  unfold Outgoing.prepareChunk
  rw [he]
  simp only
  split
  · exact ⟨rfl, fun m hm => by cases hm⟩
  · rename_i w hw
    split
    · split
      · rename_i hso
        split
        · exact ⟨rfl, fun m hm => by cases hm⟩
        · rename_i n' ha
          refine ⟨rfl, fun m hm => ?_⟩
          cases hm
          refine ⟨rfl, fun hlt => ⟨Nat.le_max_left _ _, fun _ _ => ?_⟩⟩
          show t.st.seqnoOut < max t.st.seqnoOut n'
          have e1 : addU32 build (e.encode f t.st.seqnoOut).1 1 = some ((e.encode f t.st.seqnoOut).1 + 1) :=
            if_pos hlt
          rw [e1] at ha
          cases ha
          omega
      · rename_i hso
        refine ⟨rfl, fun m hm => ?_⟩
        cases hm
        refine ⟨rfl, fun _ => ⟨Nat.le_max_left _ _, fun ho hle => ?_⟩⟩
        show t.st.seqnoOut < max t.st.seqnoOut (e.encode f t.st.seqnoOut).1
        have hle' : t.st.seqnoOut ≤ (e.encode f t.st.seqnoOut).1 := hle
        omega
    · rename_i hnw
      refine ⟨rfl, fun m hm => ?_⟩
      cases hm
      refine ⟨rfl, fun _ => ⟨Nat.le_refl _, fun ho _ => ?_⟩⟩
      obtain ⟨o1, o2⟩ := windowOpen_sub (build := build) ho
      have hw' : w = (e.encode f t.st.seqnoOut).1 - t.st.seqnoIn := Option.some.inj (hw.symm.trans o1)
      exact absurd (hw' ▸ o2) hnw

theorem chunk_fresh (f : Fec) (hn : f.Numbered) (build : Build) (s : Snd) (h : Fresh f s) :
    (s.chunk f build).phase = .failed ∨ Fresh f (s.chunk f build) := by
  unfold Snd.chunk
  cases he : s.out.enc with
  | none =>
    have e1 : s.out.prepareChunk f build = (s.out, .notReady) := by
      unfold Outgoing.prepareChunk; rw [he]
    rw [e1]
    exact .inl rfl
  | some e =>
    obtain ⟨k1, k2⟩ := prepareChunk_seqno f build s.out he
    generalize s.out.prepareChunk f build = pc at k1 k2
    obtain ⟨o, c⟩ := pc
    simp only at k1 k2
    cases c with
    | notReady => exact .inl rfl
    | panic => exact .inl rfl
    | part m =>
      refine .inr fun hall x hx => ?_
      have hall' : ∀ y ∈ s.sent, y + 1 < 2 ^ 32 := fun y hy => hall y (List.mem_append_left _ hy)
      have hm1 : m.seqno + 1 < 2 ^ 32 := hall m.seqno (List.mem_append_right _ List.mem_cons_self)
      obtain ⟨k3, k4⟩ := k2 m rfl
      obtain ⟨k4, k5⟩ := k4 hm1
      have hF := h hall' e he
      have hx' : o.enc = some x := hx
      rw [k1] at hx'
      cases hx'
      by_cases hc : e.next < f.count e.data
      · have e1 : e.encode f s.out.st.seqnoOut = (e.next, { e with next := e.next + 1 }) := if_pos hc
        rw [e1] at k3 ⊢
        have hlt : ∀ y ∈ s.sent ++ [m.seqno], y < e.next + 1 := by
          intro y hy
          rcases List.mem_append.mp hy with hy | hy
          · have := hF.source hc y hy; omega
          · rw [List.mem_singleton] at hy; simp only at k3; omega
        refine ⟨hc, fun _ => hlt, fun hnc y hy => ?_, fun hnc _ y hy => ?_⟩
        · have h1 := hlt y hy
          have h2 := hn.ge_count e.data o.st.seqnoOut
          simp only at hnc ⊢
          omega
        · have h1 := hlt y hy
          have h2 := hn.ge_count e.data o.st.seqnoOut
          simp only at hnc ⊢
          omega
      · have e1 : e.encode f s.out.st.seqnoOut = (f.repairId e.data s.out.st.seqnoOut, e) := if_neg hc
        rw [e1] at k3 ⊢
        simp only at k3
        have hmono : f.repairId e.data s.out.st.seqnoOut ≤ f.repairId e.data o.st.seqnoOut := by
          rcases Nat.lt_or_eq_of_le k4 with h1 | h1
          · exact Nat.le_of_lt (hn.strict _ _ _ h1)
          · rw [h1]; exact Nat.le_refl _
        have hle : ∀ y ∈ s.sent ++ [m.seqno], y ≤ f.repairId e.data s.out.st.seqnoOut := by
          intro y hy
          rcases List.mem_append.mp hy with hy | hy
          · exact hF.repair hc y hy
          · rw [List.mem_singleton] at hy; omega
        refine ⟨hF.le, fun hc' => absurd hc' hc, fun _ y hy => Nat.le_trans (hle y hy) hmono, fun _ ho y hy => ?_⟩
        have h1 := k5 ho (k3 ▸ hn.ge_self _ _)
        exact Nat.lt_of_le_of_lt (hle y hy) (hn.strict _ _ _ h1)

/-- The encoder and the log survive everything but `begin` and `chunk`. -/
theorem fresh_keep {f : Fec} {s s' : Snd} (h : Fresh f s) (h1 : s'.sent = s.sent)
    (h2 : s'.wasOpen = s.wasOpen) (h3 : s'.out.enc = s.out.enc)
    (h4 : s'.out.st.seqnoOut = s.out.st.seqnoOut) : Fresh f s' := by
  intro hall e he
  obtain ⟨a, b, c, d⟩ := h (h1 ▸ hall) e (h3 ▸ he)
  exact ⟨a, h1 ▸ b, h1 ▸ h4 ▸ c, h1 ▸ h2 ▸ h4 ▸ d⟩

theorem fresh_step (f : Fec) (hf : f.Lawful) (hn : f.Numbered) (build : Build) (s : Snd)
    (h : s.phase = .failed ∨ Fresh f s) (a : SAct) :
    (s.step f build a).phase = .failed ∨ Fresh f (s.step f build a) := by
  rcases h with h | h
  · left
    cases a with
    | ack a => simp only [Snd.step]; split <;> exact h
    | _ => simp [Snd.step, h]
  · cases a with
    | begin =>
      simp only [Snd.step]
      split
      · unfold Snd.begin Outgoing.startNextPart
        split
        · rename_i o heq
          split at heq
          · cases heq; exact .inr (fresh_keep h rfl rfl rfl rfl)
          · split at heq
            · cases heq; exact .inr (fresh_keep h rfl rfl rfl rfl)
            · split at heq
              · cases heq
              · rename_i hlt hc
                exact absurd (hf.count_pos _ (partData_ne_nil (Nat.lt_of_not_le hlt))) hc
        · rename_i o k heq
          split at heq
          · cases heq
          · split at heq
            · cases heq
            · have e1 := congrArg Prod.fst heq
              subst e1
              refine .inr fun _ e he => ?_
              cases he
              exact ⟨Nat.zero_le _, fun _ x hx => absurd hx List.not_mem_nil,
                fun _ x hx => absurd hx List.not_mem_nil, fun _ _ x hx => absurd hx List.not_mem_nil⟩
      · exact .inr h
    | bind =>
      simp only [Snd.step]
      split
      · exact .inr (fresh_keep h rfl rfl rfl rfl)
      · exact .inr h
    | chunk =>
      simp only [Snd.step]
      split
      · exact chunk_fresh f hn build s h
      · exact .inr h
    | check =>
      simp only [Snd.step]
      split
      · unfold Snd.check
        split
        · exact .inr h
        · exact .inr (fresh_keep h rfl rfl rfl rfl)
        · exact .inl rfl
      · exact .inr h
    | giveUp =>
      simp only [Snd.step]
      split
      · exact .inl rfl
      · exact .inr h
    | reply => exact .inr (fresh_keep h rfl rfl rfl rfl)
    | ack a =>
      simp only [Snd.step]
      split
      · exact .inr (fresh_keep h rfl rfl rfl (ack_seqno build s.out.st a).1)
      · exact .inr h

theorem fresh_run (f : Fec) (hf : f.Lawful) (hn : f.Numbered) (build : Build) (as : List SAct) :
    ∀ (s : Snd), (s.phase = .failed ∨ Fresh f s) →
      ((s.run f build as).phase = .failed ∨ Fresh f (s.run f build as)) := by
  induction as with
  | nil => intro s h; exact h
  | cons a as ih => intro s h; exact ih _ (fresh_step f hf hn build s h a)

/-- The next symbol was not sent before for this part if it is a source symbol or the window was open for
the previous one; for any number of parts and any confirmations. -/
theorem C40_fresh_partial (f : Fec) (hf : f.Lawful) (hn : f.Numbered) (data : Bytes) (build : Build)
    (as : List SAct) (p n : Nat) (e : Enc)
    (hp : ((Snd.init data).run f build as).phase = .sending p)
    (h32 : ∀ x ∈ ((Snd.init data).run f build as).sent, x + 1 < 2 ^ 32)
    (he : ((Snd.init data).run f build as).out.enc = some e)
    (ho : e.next < f.count e.data ∨ ((Snd.init data).run f build as).wasOpen = true)
    (hnext : ((Snd.init data).run f build as).out.nextNumber f = some n) :
    n ∉ ((Snd.init data).run f build as).sent := by
  have h := fresh_run f hf hn build as (Snd.init data) (.inr fun _ e he => by cases he)
  generalize (Snd.init data).run f build as = s at *
  rcases h with h | h
  · rw [hp] at h; cases h
  have hF := h h32 e he
  have hnx : (e.encode f s.out.st.seqnoOut).1 = n := by
    unfold Outgoing.nextNumber at hnext
    rw [he] at hnext
    simpa using hnext
  intro hmem
  unfold Enc.encode at hnx
  by_cases hc : e.next < f.count e.data
  · rw [if_pos hc] at hnx
    simp only at hnx
    have := hF.source hc n hmem
    omega
  · rw [if_neg hc] at hnx
    simp only at hnx
    rcases ho with ho | ho
    · exact hc ho
    · have := hF.opened hc ho n hmem
      omega

/-- Three symbols were sent, the window was open for the last, so number 4 is new. -/
example : ((Snd.init (List.replicate 1000 7)).run Fec.toy .debug
    [.begin, .bind, .chunk, .chunk, .chunk]).wasOpen = true ∧
    ((Snd.init (List.replicate 1000 7)).run Fec.toy .debug
      [.begin, .bind, .chunk, .chunk, .chunk]).sent = [0, 1, 4] ∧
    ((Snd.init (List.replicate 1000 7)).run Fec.toy .debug
      [.begin, .bind, .chunk, .chunk, .chunk]).out.nextNumber Fec.toy = some 6 := by decide +kernel

/-! ### C59: new symbols as long as they are needed -/

/-- The library's numbering: `repair_packets(s, 1)` gives symbol `count + s`. -/
def Fec.Offset (f : Fec) : Prop := ∀ d s, f.repairId d s = f.count d + s

/-- Sending and confirmations within a part. -/
def Within (as : List SAct) : Prop := ∀ a ∈ as, a = .chunk ∨ ∃ k, a = .ack k

/-- C59: whatever has been sent, with some further sending and some confirmations another symbol goes
out that was not sent before. -/
def C59_full : Prop := ∀ (f : Fec), f.Lawful → f.Numbered → f.Offset → ∀ (data : Bytes), data.length ≤ 2000000 →
  ∀ (as : List SAct) (p : Nat), ((Snd.init data).run f .release as).phase = .sending p →
    ∃ bs, Within bs ∧ ((Snd.init data).run f .release (as ++ bs)).phase = .sending p ∧
      ∃ x ∈ ((Snd.init data).run f .release (as ++ bs)).sent, x ∉ ((Snd.init data).run f .release as).sent

/-- Invariant: for big parts only one repair symbol is ever sent. -/
structure Two (f : Fec) (s : Snd) : Prop where
  le : s.out.st.seqnoIn ≤ s.out.st.seqnoOut
  two : ∀ e, s.out.enc = some e → window < f.count e.data →
    ∀ x ∈ s.sent, x < f.count e.data ∨
      (¬ e.next < f.count e.data ∧ x = f.count e.data + s.out.st.seqnoOut)

theorem two_keep {f : Fec} {s s' : Snd} (h : Two f s) (h1 : s'.sent = s.sent)
    (h3 : s'.out.enc = s.out.enc) (h4 : s'.out.st.seqnoOut = s.out.st.seqnoOut)
    (h5 : s'.out.st.seqnoIn ≤ s.out.st.seqnoOut) : Two f s' :=
  ⟨h4 ▸ h5, fun e he hc => by rw [h1, h4]; exact h.two e (h3 ▸ he) hc⟩

theorem chunk_two (f : Fec) (ho : f.Offset) (build : Build) (s : Snd) (h : Two f s) :
    Two f (s.chunk f build) := by
  unfold Snd.chunk
  cases he : s.out.enc with
  | none =>
    have e1 : s.out.prepareChunk f build = (s.out, .notReady) := by
      unfold Outgoing.prepareChunk; rw [he]
    rw [e1]
    exact two_keep h rfl rfl rfl h.le
  | some e =>
    have key : (s.out.prepareChunk f build).1.enc = some (e.encode f s.out.st.seqnoOut).2 ∧
        (s.out.prepareChunk f build).1.st.seqnoIn = s.out.st.seqnoIn ∧
        s.out.st.seqnoOut ≤ (s.out.prepareChunk f build).1.st.seqnoOut ∧
        (∀ m, (s.out.prepareChunk f build).2 = .part m → m.seqno = (e.encode f s.out.st.seqnoOut).1) ∧
        (s.out.st.seqnoIn + window < (e.encode f s.out.st.seqnoOut).1 →
          (s.out.prepareChunk f build).1.st.seqnoOut = s.out.st.seqnoOut) := by
      unfold Outgoing.prepareChunk
      rw [he]
      simp only
      split
      · exact ⟨rfl, rfl, Nat.le_refl _, fun m hm => (by cases hm), fun _ => rfl⟩
      · rename_i w hw
        split
        · rename_i hwin
          have hno : ¬ s.out.st.seqnoIn + window < (e.encode f s.out.st.seqnoOut).1 := by
            intro hlt
            have e1 : subU32 build (e.encode f s.out.st.seqnoOut).1 s.out.st.seqnoIn =
                some ((e.encode f s.out.st.seqnoOut).1 - s.out.st.seqnoIn) := if_pos (by omega)
            rw [e1] at hw
            cases hw
            omega
          split
          · split
            · exact ⟨rfl, rfl, Nat.le_refl _, fun m hm => (by cases hm), fun _ => rfl⟩
            · exact ⟨rfl, rfl, Nat.le_max_left _ _, fun m hm => (by cases hm; rfl), fun hx => absurd hx hno⟩
          · exact ⟨rfl, rfl, Nat.le_max_left _ _, fun m hm => (by cases hm; rfl), fun hx => absurd hx hno⟩
        · exact ⟨rfl, rfl, Nat.le_refl _, fun m hm => (by cases hm; rfl), fun _ => rfl⟩
    generalize s.out.prepareChunk f build = pc at key
    obtain ⟨o, c⟩ := pc
    obtain ⟨k1, k2, k3, k4, k5⟩ := key
    simp only at k1 k2 k3 k4 k5
    have hle := h.le
    have hle' : o.st.seqnoIn ≤ o.st.seqnoOut := by omega
    have old : ∀ x, o.enc = some x → window < f.count x.data → ∀ y ∈ s.sent,
        y < f.count x.data ∨ (¬ x.next < f.count x.data ∧ y = f.count x.data + o.st.seqnoOut) := by
      intro x hx hc y hy
      rw [k1] at hx
      cases hx
      by_cases hs : e.next < f.count e.data
      · have e1 : e.encode f s.out.st.seqnoOut = (e.next, { e with next := e.next + 1 }) := if_pos hs
        rw [e1] at hc ⊢
        rcases h.two e he hc y hy with h1 | h1
        · exact .inl h1
        · exact absurd hs h1.1
      · have e1 : e.encode f s.out.st.seqnoOut = (f.repairId e.data s.out.st.seqnoOut, e) := if_neg hs
        rw [e1] at hc k5 ⊢
        simp only [ho e.data] at k5
        have hc' : window < f.count e.data := hc
        have := k5 (by omega)
        rw [this]
        exact h.two e he hc y hy
    cases c with
    | notReady => exact ⟨hle', old⟩
    | panic => exact ⟨hle', old⟩
    | part m =>
      refine ⟨hle', fun x hx hc y hy => ?_⟩
      rcases List.mem_append.mp hy with hy | hy
      · exact old x hx hc y hy
      · rw [List.mem_singleton] at hy
        have hm := k4 m rfl
        have hx' : o.enc = some x := hx
        rw [k1] at hx'
        cases hx'
        by_cases hs : e.next < f.count e.data
        · have e1 : e.encode f s.out.st.seqnoOut = (e.next, { e with next := e.next + 1 }) := if_pos hs
          rw [e1] at hm ⊢
          simp only at hm
          exact .inl (by simp only; omega)
        · have e1 : e.encode f s.out.st.seqnoOut = (f.repairId e.data s.out.st.seqnoOut, e) := if_neg hs
          rw [e1] at hm k5 hc ⊢
          simp only [ho e.data] at k5 hm
          have hc' : window < f.count e.data := hc
          have := k5 (by omega)
          exact .inr ⟨hs, by show y = f.count e.data + o.st.seqnoOut; omega⟩

theorem two_step (f : Fec) (hf : f.Lawful) (ho : f.Offset) (build : Build) (s : Snd) (h : Two f s)
    (a : SAct) : Two f (s.step f build a) := by
  cases a with
  | begin =>
    simp only [Snd.step]
    split
    · unfold Snd.begin Outgoing.startNextPart
      split
      · rename_i o heq
        split at heq
        · cases heq; exact two_keep h rfl rfl rfl h.le
        · split at heq
          · cases heq; exact two_keep h rfl rfl rfl h.le
          · split at heq
            · cases heq
            · rename_i hlt hc
              exact absurd (hf.count_pos _ (partData_ne_nil (Nat.lt_of_not_le hlt))) hc
      · rename_i o k heq
        split at heq
        · cases heq
        · split at heq
          · cases heq
          · have e1 := congrArg Prod.fst heq
            subst e1
            exact ⟨h.le, fun _ _ _ x hx => absurd hx List.not_mem_nil⟩
    · exact h
  | bind =>
    simp only [Snd.step]
    split
    · exact two_keep h rfl rfl rfl h.le
    · exact h
  | chunk =>
    simp only [Snd.step]
    split
    · exact chunk_two f ho build s h
    · exact h
  | check =>
    simp only [Snd.step]
    split
    · unfold Snd.check
      split
      · exact h
      · exact two_keep h rfl rfl rfl h.le
      · exact two_keep h rfl rfl rfl h.le
    · exact h
  | giveUp =>
    simp only [Snd.step]
    split
    · exact two_keep h rfl rfl rfl h.le
    · exact h
  | reply => exact two_keep h rfl rfl rfl h.le
  | ack a =>
    simp only [Snd.step]
    split
    · obtain ⟨a1, a2⟩ := ack_seqno build s.out.st a
      exact two_keep h rfl rfl a1 (a2 h.le)
    · exact h

theorem two_run (f : Fec) (hf : f.Lawful) (ho : f.Offset) (build : Build) (as : List SAct) :
    ∀ (s : Snd), Two f s → Two f (s.run f build as) := by
  induction as with
  | nil => intro s h; exact h
  | cons a as ih => intro s h; exact ih _ (two_step f hf ho build s h a)

/-- For a part of more than 1000 source symbols, whatever confirmations arrive, all symbols sent are the
source symbols and a single repair symbol. -/
theorem C59_one_repair_partial (f : Fec) (hf : f.Lawful) (ho : f.Offset) (data : Bytes) (build : Build)
    (as : List SAct) (e : Enc) (he : ((Snd.init data).run f build as).out.enc = some e)
    (hc : 1000 < f.count e.data) :
    ∃ r, ∀ x ∈ ((Snd.init data).run f build as).sent, x < f.count e.data ∨ x = r := by
  have h := two_run f hf ho build as (Snd.init data) ⟨Nat.le_refl _, fun _ h => by cases h⟩
  exact ⟨_, fun x hx => (h.two e he hc x hx).imp id And.right⟩

/-- Invariant: the numbers sent for the part start with the source symbols in order, and the encoder has
handed out as many. -/
structure SourceFirst (f : Fec) (s : Snd) (e : Enc) : Prop where
  log : s.sent.take (f.count e.data) = List.range (min s.sent.length (f.count e.data))
  next : s.phase = .failed ∨ e.next = min s.sent.length (f.count e.data)

def SourceOk (f : Fec) (s : Snd) : Prop := ∀ e, s.out.enc = some e → SourceFirst f s e

theorem source_keep {f : Fec} {s s' : Snd} (h : SourceOk f s) (h1 : s'.sent = s.sent)
    (h2 : s'.out.enc = s.out.enc) (h3 : s.phase = .failed → s'.phase = .failed) : SourceOk f s' := by
  intro e he
  obtain ⟨a, b⟩ := h e (h2 ▸ he)
  exact ⟨h1 ▸ a, h1 ▸ b.imp h3 id⟩

theorem chunk_source (f : Fec) (build : Build) (s : Snd) (hp : s.phase ≠ .failed) (h : SourceOk f s) :
    SourceOk f (s.chunk f build) := by
  unfold Snd.chunk
  cases he : s.out.enc with
  | none =>
    have e1 : s.out.prepareChunk f build = (s.out, .notReady) := by
      unfold Outgoing.prepareChunk; rw [he]
    rw [e1]
    exact fun e he' => by rw [show _ = some e from he'] at he; cases he
  | some e =>
    obtain ⟨k1, k2⟩ := prepareChunk_seqno f build s.out he
    obtain ⟨hl, hn⟩ := h e he
    have hn : e.next = min s.sent.length (f.count e.data) := hn.resolve_left hp
    have hd : (e.encode f s.out.st.seqnoOut).2.data = e.data := by
      unfold Enc.encode; split <;> rfl
    generalize s.out.prepareChunk f build = pc at k1 k2
    obtain ⟨o, c⟩ := pc
    simp only at k1 k2
    cases c with
    | notReady =>
      intro x hx
      rw [show o.enc = some x from hx] at k1
      cases k1
      exact ⟨by rw [hd]; exact hl, .inl rfl⟩
    | panic =>
      intro x hx
      rw [show o.enc = some x from hx] at k1
      cases k1
      exact ⟨by rw [hd]; exact hl, .inl rfl⟩
    | part m =>
      intro x hx
      rw [show o.enc = some x from hx] at k1
      cases k1
      obtain ⟨k3, -⟩ := k2 m rfl
      by_cases hc : e.next < f.count e.data
      · have e1 : e.encode f s.out.st.seqnoOut = (e.next, { e with next := e.next + 1 }) := if_pos hc
        rw [e1] at k3 ⊢
        have hlen : e.next = s.sent.length := by omega
        have hlt : s.sent.length < f.count e.data := by omega
        rw [List.take_of_length_le (Nat.le_of_lt hlt), Nat.min_eq_left (Nat.le_of_lt hlt)] at hl
        refine ⟨?_, .inr ?_⟩
        · show (s.sent ++ [m.seqno]).take (f.count e.data) = _
          simp only [List.length_append, List.length_singleton]
          rw [List.take_of_length_le (by simp; omega), Nat.min_eq_left (by omega), List.range_succ, ← hl, k3, hlen]
        · simp only [List.length_append, List.length_singleton]
          omega
      · have e1 : e.encode f s.out.st.seqnoOut = (f.repairId e.data s.out.st.seqnoOut, e) := if_neg hc
        rw [e1]
        refine ⟨?_, .inr ?_⟩
        · show (s.sent ++ [m.seqno]).take (f.count e.data) = _
          simp only [List.length_append, List.length_singleton]
          rw [List.take_append_of_le_length (by omega), hl]
          congr 1
          omega
        · simp only [List.length_append, List.length_singleton]
          omega

theorem source_step (f : Fec) (hf : f.Lawful) (build : Build) (s : Snd) (h : SourceOk f s) (a : SAct) :
    SourceOk f (s.step f build a) := by
  cases a with
  | begin =>
    simp only [Snd.step]
    split
    · rename_i hp
      unfold Snd.begin Outgoing.startNextPart
      split
      · rename_i o heq
        split at heq
        · cases heq; exact source_keep h rfl rfl (fun h => by rw [hp] at h; cases h)
        · split at heq
          · cases heq; exact source_keep h rfl rfl (fun h => by rw [hp] at h; cases h)
          · split at heq
            · cases heq
            · rename_i hlt hc
              exact absurd (hf.count_pos _ (partData_ne_nil (Nat.lt_of_not_le hlt))) hc
      · rename_i o k heq
        split at heq
        · cases heq
        · split at heq
          · cases heq
          · have e1 := congrArg Prod.fst heq
            subst e1
            intro e he
            cases he
            exact ⟨by simp, .inr (by simp)⟩
    · exact h
  | bind =>
    simp only [Snd.step]
    split
    · rename_i hp
      exact source_keep h rfl rfl (fun h => by rw [hp] at h; cases h)
    · exact h
  | chunk =>
    simp only [Snd.step]
    split
    · rename_i p hp
      exact chunk_source f build s (by rw [hp]; exact nofun) h
    · exact h
  | check =>
    simp only [Snd.step]
    split
    · rename_i p hp
      unfold Snd.check
      split
      · exact h
      · exact source_keep h rfl rfl (fun h => by rw [hp] at h; cases h)
      · exact source_keep h rfl rfl (fun _ => rfl)
    · exact h
  | giveUp =>
    simp only [Snd.step]
    split
    · exact source_keep h rfl rfl (fun _ => rfl)
    · exact h
  | reply => exact source_keep h rfl rfl id
  | ack a =>
    simp only [Snd.step]
    split
    · exact source_keep h rfl rfl id
    · exact h

theorem source_run (f : Fec) (hf : f.Lawful) (build : Build) (as : List SAct) :
    ∀ (s : Snd), SourceOk f s → SourceOk f (s.run f build as) := by
  induction as with
  | nil => intro s h; exact h
  | cons a as ih => intro s h; exact ih _ (source_step f hf build s h a)

/-- Whatever confirmations arrive, the symbols sent for a part are first the source symbols, each once and in
order; so after as many chunks as there are source symbols every one of them was sent. -/
theorem C59_source_first_partial (f : Fec) (hf : f.Lawful) (data : Bytes) (build : Build) (as : List SAct)
    (e : Enc) (he : ((Snd.init data).run f build as).out.enc = some e) :
    let sent := ((Snd.init data).run f build as).sent
    sent.take (f.count e.data) = List.range (min sent.length (f.count e.data)) :=
  (source_run f hf build as (Snd.init data) (fun _ h => by cases h) e he).log

/-- Two source symbols and a repair symbol of a part of 1000 bytes. -/
example : ((Snd.init (List.replicate 1000 7)).run Fec.toy .debug
    [.begin, .bind, .chunk, .chunk, .chunk]).sent.take 2 = [0, 1] ∧
    ((Snd.init (List.replicate 1000 7)).run Fec.toy .debug
    [.begin, .bind, .chunk, .chunk, .chunk]).sent.length = 3 := by decide +kernel

/-- With at most 1000 source symbols and the last symbol confirmed the window is open again. -/
theorem C59_open_partial (f : Fec) (ho : f.Offset) (t : Outgoing) (e : Enc) (he : t.enc = some e)
    (hc : f.count e.data ≤ 1000) (hs : ¬ e.next < f.count e.data) (hin : t.st.seqnoIn = t.st.seqnoOut)
    (n : Nat) (hn : t.nextNumber f = some n) : t.windowOpen n = true := by
  change _ ≤ window at hc
  unfold Outgoing.nextNumber at hn
  rw [he] at hn
  have hnx : (e.encode f t.st.seqnoOut).1 = n := by simpa using hn
  have e1 : e.encode f t.st.seqnoOut = (f.repairId e.data t.st.seqnoOut, e) := if_neg hs
  rw [e1, ho] at hnx
  unfold Outgoing.windowOpen
  rw [Bool.and_eq_true, decide_eq_true_eq, decide_eq_true_eq]
  simp only at hnx
  omega

/-- Within a part the log only grows and the encoder keeps its data. -/
theorem within_run (f : Fec) (build : Build) (bs : List SAct) : ∀ (s : Snd), Within bs → ∀ e, s.out.enc = some e →
    (∀ x ∈ s.sent, x ∈ (s.run f build bs).sent) ∧
    ∃ e', (s.run f build bs).out.enc = some e' ∧ e'.data = e.data := by
  induction bs with
  | nil => intro s _ e he; exact ⟨fun _ h => h, e, he, rfl⟩
  | cons b bs ih =>
    intro s hw e he
    have step : (∀ x ∈ s.sent, x ∈ (s.step f build b).sent) ∧
        ∃ e', (s.step f build b).out.enc = some e' ∧ e'.data = e.data := by
      rcases hw b List.mem_cons_self with hb | ⟨k, hb⟩
      · subst hb
        simp only [Snd.step]
        split
        · obtain ⟨_, _, _, _, ⟨e', h5, h6⟩, _⟩ := prepareChunk_spec f build s.out he
          unfold Snd.chunk
          generalize s.out.prepareChunk f build = pc at h5
          obtain ⟨o, c⟩ := pc
          cases c with
          | part m => exact ⟨fun x hx => List.mem_append_left _ hx, e', h5, h6⟩
          | notReady => exact ⟨fun x hx => hx, e', h5, h6⟩
          | panic => exact ⟨fun x hx => hx, e', h5, h6⟩
        · exact ⟨fun x hx => hx, e, he, rfl⟩
      · subst hb
        simp only [Snd.step]
        split <;> exact ⟨fun x hx => hx, e, he, rfl⟩
    obtain ⟨h1, e1, he1, hd1⟩ := step
    obtain ⟨h2, e2, he2, hd2⟩ := ih _ (fun a ha => hw a (List.mem_cons_of_mem _ ha)) e1 he1
    exact ⟨fun x hx => h2 x (h1 x hx), e2, he2, hd2.trans hd1⟩

theorem Fec.toy_offset : Fec.toy.Offset := fun _ _ => rfl

theorem C59_full_false : ¬ C59_full := by
  intro h
  obtain ⟨data, hl⟩ : ∃ data : Bytes, data.length = 800000 := ⟨List.replicate 800000 0, List.length_replicate⟩
  have c0 : Fec.toy.count (partData data 0) = 1042 := by
    show ((partData data 0).length + 767) / 768 = 1042
    rw [partData_length, hl]
    decide
  have hne : data ≠ [] := by intro e; rw [e] at hl; exact absurd hl (by decide)
  have many : ∀ k, ∃ as, ((Snd.init data).run Fec.toy .release as).phase = .sending 0 ∧
      (∃ e, ((Snd.init data).run Fec.toy .release as).out.enc = some e ∧ e.data = partData data 0) ∧
      ∃ l : List Nat, l.Nodup ∧ l.length = k ∧
        ∀ x ∈ l, x ∈ ((Snd.init data).run Fec.toy .release as).sent := by
    intro k
    induction k with
    | zero =>
      refine ⟨[.begin, .bind], ?_, ⟨⟨partData data 0, 0⟩, ?_, rfl⟩, [], List.nodup_nil, rfl,
        fun _ h => absurd h List.not_mem_nil⟩
      · simp [Snd.run, Snd.init, Snd.step, Snd.begin, Outgoing.new, Outgoing.startNextPart,
          Outgoing.isFinished, hne, c0]
      · simp [Snd.run, Snd.init, Snd.step, Snd.begin, Outgoing.new, Outgoing.startNextPart,
          Outgoing.isFinished, hne, c0]
    | succ k ih =>
      obtain ⟨as, h1, ⟨e, he, hed⟩, l, hl1, hl2, hl3⟩ := ih
      obtain ⟨bs, hw, hp, x, hx, hx'⟩ := h Fec.toy Fec.toy_lawful Fec.toy_numbered Fec.toy_offset data
        (by rw [hl]; decide) as 0 h1
      have e1 : (Snd.init data).run Fec.toy .release (as ++ bs) =
          ((Snd.init data).run Fec.toy .release as).run Fec.toy .release bs := by
        simp [Snd.run, List.foldl_append]
      obtain ⟨w1, e', w2, w3⟩ := within_run Fec.toy .release bs _ hw e he
      rw [← e1] at w1 w2
      refine ⟨as ++ bs, hp, ⟨e', w2, w3.trans hed⟩, x :: l, ?_, by rw [List.length_cons, hl2], ?_⟩
      · exact List.nodup_cons.mpr ⟨fun hxl => hx' (hl3 x hxl), hl1⟩
      · intro y hy
        rcases List.mem_cons.mp hy with hy | hy
        · exact hy ▸ hx
        · exact w1 y (hl3 y hy)
  obtain ⟨as, _, ⟨e, he, hed⟩, l, hl1, hl2, hl3⟩ := many 1044
  obtain ⟨r, hr⟩ := C59_one_repair_partial Fec.toy Fec.toy_lawful Fec.toy_offset data .release as e he
    (by rw [hed, c0]; decide)
  rw [hed, c0] at hr
  have hsub : l ⊆ r :: List.range 1042 := by
    intro x hx
    rcases hr x (hl3 x hx) with h1 | h1
    · exact List.mem_cons_of_mem _ (List.mem_range.mpr h1)
    · exact h1 ▸ List.mem_cons_self
  have := (List.subperm_of_subset hl1 hsub).length_le
  rw [hl2, List.length_cons, List.length_range] at this
  omega

example := C40_panic_iff_partial Fec.toy ((Snd.init (List.replicate 1000 7)).run Fec.toy .debug
    [.begin, .bind, .chunk, .chunk, .ack (.confirm 0 1)]).out 4 (by decide +kernel)
example : ∃ (t : Outgoing) (n : Nat), t.nextNumber Fec.toy = some n ∧ t.windowOpen n = true := by
  refine ⟨((Snd.init (List.replicate 1000 7)).run Fec.toy .debug
    [.begin, .bind, .chunk, .chunk, .ack (.confirm 0 2)]).out, 4, by decide +kernel, ?_⟩
  have h : (((Snd.init (List.replicate 1000 7)).run Fec.toy .debug
    [.begin, .bind, .chunk, .chunk, .ack (.confirm 0 2)]).out.enc).map
      (fun e => decide (Fec.toy.count e.data ≤ window ∧ ¬ e.next < Fec.toy.count e.data)) = some true := by decide +kernel
  obtain ⟨e, h1, h2⟩ := Option.map_eq_some_iff.mp h
  rw [decide_eq_true_eq] at h2
  exact C59_open_partial Fec.toy Fec.toy_offset _ e h1 h2.1 h2.2 (by decide +kernel) 4 (by decide +kernel)

/-! ### The sender alone and the two nodes -/

/-- The sender of the system as a sender alone; what it sent for the current part is the end of what is in the network. -/
structure SameSender {f : Fec} (t : Snd) (s : Sys f) : Prop where
  out : t.out = s.out
  phase : t.phase = s.phase
  sent : ∃ before last, s.net = before ++ last ∧ last.map Part.seqno = t.sent

theorem sameSender_step {f : Fec} (build : Build) {t : Snd} {s : Sys f} (h : SameSender t s) (a : Act) :
    ∃ bs : List SAct, SameSender (t.run f build bs) (s.step build a) := by
  obtain ⟨to', tp, ts, tw⟩ := t
  obtain ⟨h1, h2, before, last, hn, hs⟩ := h
  dsimp only at h1 h2 hs
  subst h1 h2
  have stay : ∀ s' : Sys f, s'.out = s.out → s'.phase = s.phase → s'.net = s.net →
      ∃ bs : List SAct, SameSender (Snd.run f build ⟨s.out, s.phase, ts, tw⟩ bs) s' :=
    fun s' e1 e2 e3 => ⟨[], e1.symm, e2.symm, before, last, e3.trans hn, hs⟩
  cases a with
  | begin =>
    by_cases hp : s.phase = .start
    · refine ⟨[.begin], ?_⟩
      simp only [Snd.run, List.foldl, Snd.step, Sys.step, hp, if_true, Snd.begin, Sys.begin]
      rcases Outgoing.startNextPart f s.out with ⟨o, _ | n⟩
      · exact ⟨rfl, rfl, before, last, hn, hs⟩
      · exact ⟨rfl, rfl, s.net, [], (List.append_nil _).symm, rfl⟩
    · simp only [Sys.step, if_neg hp]
      exact stay s rfl rfl rfl
  | bind =>
    by_cases hp : s.phase = .begun
    · refine ⟨[.bind], ?_⟩
      simp only [Snd.run, List.foldl, Snd.step, Sys.step, hp, if_true]
      exact ⟨rfl, rfl, before, last, hn, hs⟩
    · simp only [Sys.step, if_neg hp]
      exact stay s rfl rfl rfl
  | chunk =>
    refine ⟨[.chunk], ?_⟩
    simp only [Snd.run, List.foldl, Snd.step, Sys.step, Snd.chunk, Sys.chunk]
    cases hp : s.phase with
    | sending p =>
      dsimp only
      rcases Outgoing.prepareChunk f build s.out with ⟨o, c⟩
      cases c <;> dsimp only <;>
        first
        | exact ⟨rfl, rfl, before, last ++ [_], (congrArg (· ++ [_]) hn).trans (List.append_assoc _ _ _), by simp [hs]⟩
        | exact ⟨rfl, rfl, before, last, hn, hs⟩
    | _ => exact ⟨rfl, hp.symm, before, last, hn, hs⟩
  | check =>
    refine ⟨[.check], ?_⟩
    simp only [Snd.run, List.foldl, Snd.step, Sys.step, Snd.check, Sys.check]
    cases hp : s.phase with
    | sending p =>
      dsimp only
      cases Outgoing.finishedOrNext build s.out p <;>
        first
        | exact ⟨rfl, rfl, before, last, hn, hs⟩
        | exact ⟨rfl, hp.symm, before, last, hn, hs⟩
    | _ => exact ⟨rfl, hp.symm, before, last, hn, hs⟩
  | giveUp =>
    refine ⟨[.giveUp], ?_⟩
    simp only [Snd.run, List.foldl, Snd.step, Sys.step]
    cases hp : s.phase with
    | sending p => exact ⟨rfl, rfl, before, last, hn, hs⟩
    | _ => exact ⟨rfl, hp.symm, before, last, hn, hs⟩
  | deliver i =>
    simp only [Sys.step]
    split
    · unfold Sys.receive
      split
      · exact stay _ rfl rfl rfl
      · exact stay _ rfl rfl rfl
    · exact stay s rfl rfl rfl
  | ack i =>
    simp only [Sys.step]
    split
    · rename_i a _
      by_cases hr : s.phase.running
      · refine ⟨[.ack a], ?_⟩
        simp only [Snd.run, List.foldl, Snd.step, hr, if_true]
        exact ⟨rfl, rfl, before, last, hn, hs⟩
      · simp only [hr]
        exact stay s rfl rfl rfl
    · exact stay s rfl rfl rfl
  | reply =>
    simp only [Sys.step]
    split
    · exact ⟨[.reply], rfl, rfl, before, last, hn, hs⟩
    · exact stay s rfl rfl rfl
  | expire => exact stay _ rfl rfl rfl

/-- C59: what the sender does in a transfer between two nodes, it does alone with some confirmations: same state of the
transfer, same place in `send`, and the same symbols sent for the current part. -/
theorem C59_includes_system (f : Fec) (data : Bytes) (max : Nat) (build : Build) (as : List Act) :
    ∃ bs : List SAct,
      ((Snd.init data).run f build bs).out = ((Sys.init f data max).run build as).out ∧
      ((Snd.init data).run f build bs).phase = ((Sys.init f data max).run build as).phase ∧
      ∃ before last, ((Sys.init f data max).run build as).net = before ++ last ∧
        last.map Part.seqno = ((Snd.init data).run f build bs).sent := by
  have key : ∀ (as : List Act) (t : Snd) (s : Sys f), SameSender t s →
      ∃ bs : List SAct, SameSender (t.run f build bs) (s.run build as) := by
    intro as
    induction as with
    | nil => intro t s h; exact ⟨[], h⟩
    | cons a as ih =>
      intro t s h
      obtain ⟨b1, h1⟩ := sameSender_step build h a
      obtain ⟨b2, h2⟩ := ih _ _ h1
      exact ⟨b1 ++ b2, by simpa [Snd.run, Sys.run, List.foldl_append] using h2⟩
  obtain ⟨bs, h⟩ := key as (Snd.init data) (Sys.init f data max) ⟨rfl, rfl, [], [], rfl, rfl⟩
  exact ⟨bs, h.out, h.phase, h.sent⟩

/-- C59: a transfer of 1000 bytes that is completed: the sender alone can get there too. -/
example : ∃ bs : List SAct, ((Snd.init (List.replicate 1000 7)).run Fec.toy .debug bs).phase = .ok := by
  obtain ⟨bs, -, h, -⟩ := C59_includes_system Fec.toy (List.replicate 1000 7) 2000 .debug
    [.begin, .bind, .chunk, .chunk, .deliver 1, .deliver 1, .deliver 0, .chunk, .deliver 2, .ack 2, .check, .begin]
  exact ⟨bs, h.trans (by decide +kernel)⟩
end Verif.Rldp
