import Verif.Props.OverlayOnce

/-!
# C74: a coded broadcast is given up only after a silence

The clean-up task of a transfer (overlay.rs:1031-1064) wakes up ten times per timeout.
-/
namespace Verif.Overlay
open Verif.Tl Verif.AdnlProto Verif.Rldp

variable {c : Crypto} {f : Fec}

/-- Transfer `j` has been refreshed at time `τ` or later. -/
def Fresh (s : State c f) (j τ : Nat) : Prop :=
  τ ≤ s.clock ∧ ∃ t, s.transfers[j]? = some t ∧ (τ - t.startedAt) / 1000 ≤ t.updatedAt

theorem fresh_set {s : State c f} {j τ i : Nat} {t t' : Transfer c f} (h : Fresh s j τ)
    (ht : s.transfers[i]? = some t) {s' : State c f} (hs : s'.transfers = s.transfers.set i t')
    (hc : s'.clock = s.clock) (h1 : t'.startedAt = t.startedAt)
    (h2 : t'.updatedAt = t.updatedAt ∨ t'.updatedAt = (s.clock - t.startedAt) / 1000) : Fresh s' j τ := by
  obtain ⟨hτ, u, hu, hle⟩ := h
  refine ⟨by rw [hc]; exact hτ, ?_⟩
  rw [hs, List.getElem?_set]
  by_cases e : i = j
  · subst e
    have hlt : i < s.transfers.length := (List.getElem?_eq_some_iff.mp hu).1
    rw [if_pos rfl, if_pos hlt]
    rw [ht] at hu
    cases hu
    refine ⟨t', rfl, ?_⟩
    rw [h1]
    rcases h2 with h2 | h2
    · rw [h2]; exact hle
    · rw [h2]; exact Nat.div_le_div_right (Nat.sub_le_sub_right hτ _)
  · rw [if_neg e]
    exact ⟨u, hu, hle⟩

theorem fresh_same {s s' : State c f} {j τ : Nat} (h : Fresh s j τ) (h1 : s'.transfers = s.transfers)
    (h2 : s.clock ≤ s'.clock) : Fresh s' j τ := by
  obtain ⟨hτ, u, hu, hle⟩ := h
  exact ⟨by omega, u, by rw [h1]; exact hu, hle⟩

theorem feed_eq (s : State c f) (i : Nat) (t : Transfer c f) (pub : c.Pub) (source : Bytes) (b : FecPart) :
    ∃ t', (feed c f s i t pub source b).1 = { s with transfers := s.transfers.set i t' } ∧
      t'.startedAt = t.startedAt ∧ t'.updatedAt = (s.clock - t.startedAt) / 1000 := by
  unfold feed
  simp only
  split
  · exact ⟨_, rfl, rfl, rfl⟩
  · cases PacketsHistory.deliver t.hist b.seqno with
    | mk h ok =>
      cases ok with
      | false => exact ⟨_, rfl, rfl, rfl⟩
      | true =>
        simp only
        split
        · exact ⟨_, rfl, rfl, rfl⟩
        · split
          · exact ⟨_, rfl, rfl, rfl⟩
          · exact ⟨_, rfl, rfl, rfl⟩

theorem fresh_step (e : Env) (s : State c f) (a : Action) {j τ : Nat} (h : Fresh s j τ) :
    Fresh (step c f e s a).1 j τ := by
  cases a with
  | tick ms => exact fresh_same h rfl (Nat.le_add_right _ _)
  | ordinary now b =>
    simp only [step, receiveOrdinary]
    split
    · exact h
    · exact h
    · split
      · exact h
      · exact fresh_same h rfl (Nat.le_refl _)
  | fec now b =>
    simp only [step, receiveFec]
    split
    · exact h
    · exact h
    · split
      · exact h
      · rename_i pub _
        split
        · exact h
        · have h' : Fresh (if (s.owned.get b.dataHash).isNone then newTransfer c f e s b (Node.shortId c pub) else s)
              j τ := by
            split
            · obtain ⟨hτ, u, hu, hle⟩ := h
              refine ⟨hτ, u, ?_, hle⟩
              simp only [newTransfer]
              rw [List.getElem?_append_left (List.getElem?_eq_some_iff.mp hu).1]
              exact hu
            · exact h
          generalize (if (s.owned.get b.dataHash).isNone then newTransfer c f e s b (Node.shortId c pub) else s) = s1
            at h' ⊢
          split
          · split
            · rename_i i _ _ t ht
              obtain ⟨t', h1, h2, h3⟩ := feed_eq s1 i t pub (Node.shortId c pub) b
              rw [h1]
              exact fresh_set h' ht rfl rfl h2 (.inr h3)
            · exact h'
          · exact h'
  | own bid =>
    simp only [step, createOwn]
    split
    · exact h
    · exact fresh_same h rfl (Nat.le_refl _)
  | task i =>
    simp only [step, taskStep]
    split
    · exact h
    · rename_i t ht
      split
      · exact h
      · split
        · split
          · exact h
          · exact fresh_set h ht rfl rfl rfl (.inl rfl)
        · split <;> exact fresh_set h ht rfl rfl rfl (.inl rfl)
  | mark i =>
    simp only [step, markStep]
    split
    · exact h
    · rename_i t ht
      split
      · exact h
      · have h' : Fresh { s with transfers := s.transfers.set i { t with phase := .ended } } j τ :=
          fresh_set h ht rfl rfl rfl (.inl rfl)
        split
        · split
          · rename_i u hu
            exact fresh_set h' hu rfl rfl rfl (.inl rfl)
          · exact h'
        · exact h'
  | cleanup i =>
    simp only [step, cleanupStep]
    split
    · exact h
    · split
      · exact h
      · split <;> exact fresh_same h rfl (Nat.le_refl _)
  | expire i =>
    simp only [step]
    split
    · exact h
    · split
      · exact h
      · exact fresh_same h rfl (Nat.le_refl _)
  | push i =>
    simp only [step]
    split
    · exact h
    · exact fresh_same h rfl (Nat.le_refl _)
  | gcCheck =>
    simp only [step]
    split <;> exact fresh_same h rfl (Nat.le_refl _)
  | gcPop =>
    simp only [step]
    split
    · split <;> exact fresh_same h rfl (Nat.le_refl _)
    · exact h
  | gcSub =>
    simp only [step]
    split <;> exact fresh_same h rfl (Nat.le_refl _)

theorem fresh_run (e : Env) (as : List Action) : ∀ {s : State c f} {j τ : Nat}, Fresh s j τ →
    Fresh (run c f e s as) j τ := by
  induction as with
  | nil => exact fun h => h
  | cons a as ih => exact fun h => ih (fresh_step e _ a h)

/-- A packet that was passed on refreshes the transfer of its broadcast. -/
theorem fresh_fec (e : Env) (s : State c f) (now : Nat) (b : FecPart) (j : Nat)
    (hf : (step c f e s (.fec now b)).2.forwarded = true)
    (hj : (step c f e s (.fec now b)).1.owned.get b.dataHash = some (.incoming j)) :
    Fresh (step c f e s (.fec now b)).1 j s.clock := by
  simp only [step, receiveFec] at hf hj ⊢
  split at hf
  · cases hf
  · cases hf
  · rename_i hod
    rw [hod] at hj
    split at hf
    · cases hf
    · rename_i pub hpub
      split at hf
      · cases hf
      · rename_i hout hsig
        simp only [hpub, if_neg hsig] at hj ⊢
        have hclock : (if (s.owned.get b.dataHash).isNone then newTransfer c f e s b (Node.shortId c pub) else s).clock
            = s.clock := by split <;> rfl
        generalize (if (s.owned.get b.dataHash).isNone then newTransfer c f e s b (Node.shortId c pub) else s) = s1
          at hf hj hclock ⊢
        split at hf
        · rename_i i hi
          simp only [hi] at hj ⊢
          split at hf
          · rename_i t ht
            simp only [ht] at hj ⊢
            obtain ⟨t', h1, h2, h3⟩ := feed_eq s1 i t pub (Node.shortId c pub) b
            rw [h1] at hj ⊢
            simp only [hi, Option.some.injEq, Owned.incoming.injEq] at hj
            subst hj
            have hlt : i < s1.transfers.length := (List.getElem?_eq_some_iff.mp ht).1
            refine ⟨by rw [← hclock], t', ?_, ?_⟩
            · simp [hlt]
            · rw [h3, h2, hclock]
          · cases hf
        · cases hf

/-- **C74 (kept while packets arrive)** After a packet of a coded broadcast has been accepted, whatever else
happens: as long as less than the timeout (minus the rounding of one second) has passed, the transfer is not
complete and still in the table, its clean-up task goes on waiting and nothing is done to forget it. -/
theorem C74_kept_while_active (e : Env) (s : State c f) (now : Nat) (b : FecPart) (j : Nat)
    (hf : (step c f e s (.fec now b)).2.forwarded = true)
    (hj : (step c f e s (.fec now b)).1.owned.get b.dataHash = some (.incoming j)) (as : List Action)
    (s' : State c f) (hs' : s' = run c f e (step c f e s (.fec now b)).1 as)
    (hkeep : s'.owned.get b.dataHash = some (.incoming j)) (t : Transfer c f)
    (ht : s'.transfers[j]? = some t) (hopen : t.completed = false)
    (htime : s'.clock + 1000 ≤ s.clock + 1000 * e.timeout) (i due : Nat)
    (hi : s'.cleanups[i]? = some (b.dataHash, due)) :
    (step c f e s' (.cleanup i)).1 = s' ∨
    ∃ due', due ≤ due' ∧
      (step c f e s' (.cleanup i)).1 = { s' with cleanups := s'.cleanups.set i (b.dataHash, due') } := by
  have h := fresh_run e as (fresh_fec e s now b j hf hj)
  rw [← hs'] at h
  obtain ⟨hτ, u, hu, hle⟩ := h
  rw [ht] at hu
  cases hu
  simp only [step, cleanupStep, hi]
  by_cases hdue : s'.clock < due
  · exact .inl (by rw [if_pos hdue])
  · rw [if_neg hdue]
    have hk : keepsWaiting c f e s' b.dataHash = true := by
      simp only [keepsWaiting, hkeep, ht, hopen, Bool.not_false, Bool.true_and]
      have : (s'.clock - t.startedAt) / 1000 < t.updatedAt + e.timeout := by omega
      simp only [Bool.not_eq_true', decide_eq_false_iff_not]
      omega
    rw [if_pos hk]
    exact .inr ⟨s'.clock + 100 * e.timeout, by omega, rfl⟩

/-- A packet arrives, another one 40 seconds later; at 65 seconds the clean-up task goes on waiting although
the transfer is older than the timeout of a minute. -/
example :
    let s := run Crypto.toy Fec.toy sampleEnv (State.init Crypto.toy Fec.toy) [.fec 100 { samplePart with fec := ⟨2, 1, 2⟩ }, .tick 40000]
    let b := { samplePart with fec := ⟨2, 1, 2⟩, seqno := 1 }
    let s1 := (step Crypto.toy Fec.toy sampleEnv s (.fec 100 b)).1
    let s' := run Crypto.toy Fec.toy sampleEnv s1 [.tick 25000]
    (step Crypto.toy Fec.toy sampleEnv s (.fec 100 b)).2.forwarded = true ∧
    s1.owned.get b.dataHash = some (.incoming 0) ∧ s'.owned.get b.dataHash = some (.incoming 0) ∧
    (s'.transfers[0]?).map (·.completed) = some false ∧ s'.clock = 65000 ∧
    s'.cleanups[0]? = some (b.dataHash, 6000) := by decide +kernel

/-- **C74 (given up after a silence)** If the last refresh of an open transfer is more than the timeout ago,
the next wake-up of its clean-up task ends the waiting: the task goes and the broadcast will be forgotten
after another timeout. -/
theorem C74_given_up (e : Env) (s : State c f) (bid : Bytes) (j : Nat) (t : Transfer c f)
    (hj : s.owned.get bid = some (.incoming j)) (ht : s.transfers[j]? = some t)
    (htime : t.startedAt + 1000 * (t.updatedAt + e.timeout) ≤ s.clock) (i due : Nat)
    (hi : s.cleanups[i]? = some (bid, due)) (hdue : due ≤ s.clock) :
    (step c f e s (.cleanup i)).1 = { s with
      cleanups := s.cleanups.eraseIdx i
      timers := s.timers ++ [(bid, s.clock + 1000 * e.timeout)] } := by
  simp only [step, cleanupStep, hi, if_neg (show ¬ s.clock < due by omega)]
  have hk : keepsWaiting c f e s bid = false := by
    simp only [keepsWaiting, hj, ht, Bool.and_eq_false_iff]
    right
    simp only [Bool.not_eq_false', decide_eq_true_eq]
    omega
  rw [hk]
  rfl

example :
    let s := run Crypto.toy Fec.toy sampleEnv (State.init Crypto.toy Fec.toy) [.fec 100 { samplePart with fec := ⟨2, 1, 2⟩ }, .tick 60000]
    s.owned.get samplePart.dataHash = some (.incoming 0) ∧
    (s.transfers[0]?).map (fun t => decide (t.startedAt + 1000 * (t.updatedAt + sampleEnv.timeout) ≤ s.clock)) =
      some true ∧
    s.cleanups[0]? = some (samplePart.dataHash, 6000) := by decide +kernel

end Verif.Overlay
