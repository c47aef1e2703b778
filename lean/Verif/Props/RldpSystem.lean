import Verif.Proofs.RldpSystem
import Verif.Props.RldpReceive

/-!
# C38, C39: an RLDP transfer between two nodes

The schedules are arbitrary lists of actions: message parts and confirmations are delivered late, out of
order, repeatedly or never.
-/
namespace Verif.Rldp

theorem decoded_prefix {f : Fec} {data : Bytes} {r : Receiving f} {ns : List Nat} (h : Honest data r ns)
    {k : Nat} (hk : ∀ q, q < k → r.Decoded q) : data.take (k * sliceLen) <+: r.transfer.data := by
  cases hl : r.left with
  | true => rw [h.left hl]; exact List.take_prefix _ _
  | false =>
    rw [h.got hl]
    refine List.take_prefix_take_left (Nat.mul_le_mul_right _ ?_)
    rcases Nat.eq_zero_or_pos k with e | e
    · omega
    · rcases hk (k - 1) (by omega) with h1 | h1
      · omega
      · exact absurd (hl.symm.trans h1) (by decide)

/-! ### The full claims fail -/

/-- C38: a completed transfer has the data sent, and every part acknowledged is stored. -/
def C38_full : Prop := ∀ (f : Fec), f.Lawful → ∀ (data : Bytes), data ≠ [] → data.length < 2 ^ 32 →
  ∀ (max : Nat), data.length ≤ max → ∀ (build : Build) (as : List Act),
    (((Sys.init f data max).run build as).recv.left = true →
      ((Sys.init f data max).run build as).recv.transfer.data = data) ∧
    ∀ q, Ack.complete q ∈ ((Sys.init f data max).run build as).back →
      data.take ((q + 1) * sliceLen) <+: ((Sys.init f data max).run build as).recv.transfer.data

/-- C39: the sender's part number counts parts stored by the receiver, and it reports success only if
the receiver has everything. -/
def C39_full : Prop := ∀ (f : Fec), f.Lawful → ∀ (data : Bytes), data ≠ [] → data.length < 2 ^ 32 →
  ∀ (max : Nat), data.length ≤ max → ∀ (build : Build) (as : List Act),
    data.take (((Sys.init f data max).run build as).out.st.part * sliceLen) <+:
      ((Sys.init f data max).run build as).recv.transfer.data ∧
    (((Sys.init f data max).run build as).phase = .ok →
      ((Sys.init f data max).run build as).recv.transfer.data = data)

/-- Two symbols are needed; the receiver's entry is replaced by `Done` before the second arrives, which
is then confirmed blindly. -/
def blindSchedule : List Act :=
  [.begin, .bind, .chunk, .chunk, .deliver 0, .expire, .deliver 1, .ack 1, .check, .begin]

theorem blind_run :
    ((Sys.init Fec.toy (List.replicate 1000 7) 2000).run .debug blindSchedule).phase = .ok ∧
    ((Sys.init Fec.toy (List.replicate 1000 7) 2000).run .debug blindSchedule).recv.transfer.data = [] ∧
    Ack.complete 0 ∈ ((Sys.init Fec.toy (List.replicate 1000 7) 2000).run .debug blindSchedule).back := by
  decide +kernel

theorem C38_full_false : ¬ C38_full := by
  intro h
  have := (h Fec.toy Fec.toy_lawful (List.replicate 1000 7) (by decide +kernel)
    (by decide +kernel) 2000 (by decide +kernel) .debug
    blindSchedule).2 0 blind_run.2.2
  rw [blind_run.2.1] at this
  exact absurd (List.IsPrefix.length_le this) (by decide +kernel)

theorem C39_full_false : ¬ C39_full := by
  intro h
  have := (h Fec.toy Fec.toy_lawful (List.replicate 1000 7) (by decide +kernel)
    (by decide +kernel) 2000 (by decide +kernel) .debug
    blindSchedule).2 blind_run.1
  rw [blind_run.2.1] at this
  cases this

/-! ### As long as the receiver's entry does not expire -/

/-- End to end: a completed transfer has the data sent, and every part acknowledged is stored. -/
theorem C38_end_to_end_partial (f : Fec) (hf : f.Lawful) (data : Bytes) (hd : data ≠ [])
    (h32 : data.length < 2 ^ 32) (max : Nat) (hm : data.length ≤ max) (build : Build) (as : List Act)
    (ha : ∀ a ∈ as, a ≠ .expire) :
    (((Sys.init f data max).run build as).recv.left = true →
      ((Sys.init f data max).run build as).recv.transfer.data = data) ∧
    ∀ q, Ack.complete q ∈ ((Sys.init f data max).run build as).back →
      data.take ((q + 1) * sliceLen) <+: ((Sys.init f data max).run build as).recv.transfer.data := by
  obtain ⟨b, h⟩ := run_inv hf build h32 as (sinv_init f hd hm) ha
  obtain ⟨ns, hh⟩ := h.honest
  refine ⟨hh.left, fun q hq => decoded_prefix hh fun k hk => ?_⟩
  rcases (h.back q hq).2.2 with e | e
  · exact .inl (by omega)
  · exact .inr e

/-- The parts before the sender's part number are stored by the receiver; success means that everything
is. -/
theorem C39_acknowledged_partial (f : Fec) (hf : f.Lawful) (data : Bytes) (hd : data ≠ [])
    (h32 : data.length < 2 ^ 32) (max : Nat) (hm : data.length ≤ max) (build : Build) (as : List Act)
    (ha : ∀ a ∈ as, a ≠ .expire) :
    data.take (((Sys.init f data max).run build as).out.st.part * sliceLen) <+:
      ((Sys.init f data max).run build as).recv.transfer.data ∧
    (((Sys.init f data max).run build as).phase = .ok →
      ((Sys.init f data max).run build as).recv.transfer.data = data) := by
  obtain ⟨b, h⟩ := run_inv hf build h32 as (sinv_init f hd hm) ha
  obtain ⟨ns, hh⟩ := h.honest
  exact ⟨decoded_prefix hh h.dec, fun ho => hh.left (h.atOk ho)⟩

/-- Parts are started one after the other, none left out, none twice. -/
theorem C39_no_skip_partial (f : Fec) (hf : f.Lawful) (data : Bytes) (hd : data ≠ [])
    (h32 : data.length < 2 ^ 32) (max : Nat) (hm : data.length ≤ max) (build : Build) (as : List Act)
    (ha : ∀ a ∈ as, a ≠ .expire) :
    ∃ k, ((Sys.init f data max).run build as).started = List.range k := by
  obtain ⟨b, h⟩ := run_inv hf build h32 as (sinv_init f hd hm) ha
  by_cases hp : ((Sys.init f data max).run build as).phase = .begun
  · exact ⟨b + 1, (h.atBegun hp).2.2.1⟩
  · exact ⟨b, h.started hp⟩

/-- No action moves the part number back, or forward by more than one. -/
theorem C39_monotone_partial (f : Fec) (hf : f.Lawful) (data : Bytes) (hd : data ≠ [])
    (h32 : data.length < 2 ^ 32) (max : Nat) (hm : data.length ≤ max) (build : Build) (as : List Act)
    (ha : ∀ a ∈ as, a ≠ .expire) (a : Act) :
    ((Sys.init f data max).run build as).out.st.part ≤
      (((Sys.init f data max).run build as).step build a).out.st.part ∧
    (((Sys.init f data max).run build as).step build a).out.st.part ≤
      ((Sys.init f data max).run build as).out.st.part + 1 := by
  obtain ⟨b, h⟩ := run_inv hf build h32 as (sinv_init f hd hm) ha
  generalize (Sys.init f data max).run build as = s at h ⊢
  have same : ∀ s' : Sys f, s'.out.st.part = s.out.st.part →
      s.out.st.part ≤ s'.out.st.part ∧ s'.out.st.part ≤ s.out.st.part + 1 := fun s' e => by omega
  cases a with
  | begin =>
    apply same
    simp only [Sys.step]
    split
    · unfold Sys.begin
      have e : (s.out.startNextPart f).1.st = s.out.st := by
        unfold Outgoing.startNextPart
        split
        · rfl
        · split
          · rfl
          · rfl
      generalize s.out.startNextPart f = x at e
      obtain ⟨o, r⟩ := x
      cases r with
      | none => exact congrArg OutState.part e
      | some _ => exact congrArg OutState.part e
    · rfl
  | bind => apply same; simp only [Sys.step]; split <;> rfl
  | chunk =>
    apply same
    simp only [Sys.step]
    split
    · rename_i p hp
      obtain ⟨e, he⟩ := Option.isSome_iff_exists.mp (h.atSending p hp).2.2.2
      have h3 := (prepareChunk_spec f build s.out he).2.2.1
      unfold Sys.chunk
      generalize s.out.prepareChunk f build = x at h3
      obtain ⟨o, r⟩ := x
      cases r <;> exact h3
    · rfl
  | check =>
    apply same
    simp only [Sys.step]
    split
    · unfold Sys.check; split <;> rfl
    · rfl
  | giveUp => apply same; simp only [Sys.step]; split <;> rfl
  | deliver i =>
    apply same
    simp only [Sys.step]
    split
    · unfold Sys.receive; split <;> rfl
    · rfl
  | ack i =>
    simp only [Sys.step]
    split
    · rename_i a hget
      split
      · show s.out.st.part ≤ (s.out.st.ack build a).part ∧ (s.out.st.ack build a).part ≤ s.out.st.part + 1
        rcases (ack_spec build s.out.st a).2 with e | ⟨q, e, hq⟩
        · omega
        · subst e
          have : q * 2000000 < data.length := (h.back q (List.mem_of_getElem? hget)).2.1
          have := hq (by omega)
          omega
      · exact same _ rfl
    · exact same _ rfl
  | reply => apply same; simp only [Sys.step]; split <;> rfl
  | expire => exact same _ rfl

/-- The check in the sending loop never fails with `PartMismatch` and never panics. -/
theorem C39_no_mismatch_partial (f : Fec) (hf : f.Lawful) (data : Bytes) (hd : data ≠ [])
    (h32 : data.length < 2 ^ 32) (max : Nat) (hm : data.length ≤ max) (build : Build) (as : List Act)
    (ha : ∀ a ∈ as, a ≠ .expire) (p : Nat)
    (hp : ((Sys.init f data max).run build as).phase = .sending p) :
    ((Sys.init f data max).run build as).out.finishedOrNext build p = .no ∨
    ((Sys.init f data max).run build as).out.finishedOrNext build p = .yes := by
  obtain ⟨b, h⟩ := run_inv hf build h32 as (sinv_init f hd hm) ha
  generalize (Sys.init f data max).run build as = s at h hp ⊢
  obtain ⟨e1, e2, e3, e4⟩ := h.atSending p hp
  obtain ⟨e, he⟩ := Option.isSome_iff_exists.mp e4
  have hin : s.out.cur * 2000000 < data.length := (h.enc e he).2
  have hpb := h.part
  unfold Outgoing.finishedOrNext
  split
  · exact .inr rfl
  · split
    · exact .inl rfl
    · have : addU32 build p 1 = some (p + 1) := if_pos (by omega)
      rw [this]
      simp only
      rw [if_pos (by omega)]
      exact .inr rfl

/-- A successful transfer with loss of the first confirmation. -/
example : ((Sys.init Fec.toy (List.replicate 1000 7) 2000).run .debug
    [.begin, .bind, .chunk, .chunk, .deliver 1, .deliver 1, .deliver 0, .chunk, .deliver 2, .ack 2, .check,
      .begin]).phase = .ok := by decide +kernel

-- C38_end_to_end_partial, C39_acknowledged_partial, C39_no_skip_partial, C39_monotone_partial: this schedule
def wholeSchedule : List Act :=
  [.begin, .bind, .chunk, .chunk, .deliver 1, .deliver 1, .deliver 0, .chunk, .deliver 2, .ack 2, .check, .begin]

theorem wholeSchedule_waits : ∀ a ∈ wholeSchedule, a ≠ .expire := by decide

example := C38_end_to_end_partial Fec.toy Fec.toy_lawful (List.replicate 1000 7)
  (List.ne_nil_of_length_pos (by rw [List.length_replicate]; omega))
  (by rw [List.length_replicate]; omega) 2000 (by rw [List.length_replicate]; omega) .debug wholeSchedule wholeSchedule_waits
example := C39_acknowledged_partial Fec.toy Fec.toy_lawful (List.replicate 1000 7)
  (List.ne_nil_of_length_pos (by rw [List.length_replicate]; omega))
  (by rw [List.length_replicate]; omega) 2000 (by rw [List.length_replicate]; omega) .debug wholeSchedule wholeSchedule_waits
example := C39_no_skip_partial Fec.toy Fec.toy_lawful (List.replicate 1000 7)
  (List.ne_nil_of_length_pos (by rw [List.length_replicate]; omega))
  (by rw [List.length_replicate]; omega) 2000 (by rw [List.length_replicate]; omega) .debug wholeSchedule wholeSchedule_waits
example := C39_monotone_partial Fec.toy Fec.toy_lawful (List.replicate 1000 7)
  (List.ne_nil_of_length_pos (by rw [List.length_replicate]; omega))
  (by rw [List.length_replicate]; omega) 2000 (by rw [List.length_replicate]; omega) .debug wholeSchedule wholeSchedule_waits
  .expire

end Verif.Rldp
