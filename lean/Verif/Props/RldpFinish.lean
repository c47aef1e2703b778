import Verif.Props.RldpWindow

/-!
# C106: a running RLDP transfer can always be finished
-/
namespace Verif.Rldp

variable {f : Fec}

/-- After `as`, some continuation without timeouts and without
an answer ends with success at the sender and all data at the
receiver. -/
def CanFinish (f : Fec) (data : Bytes) (max : Nat) (build : Build) (as : List Act) : Prop :=
  ∃ bs, (∀ a ∈ bs, a ≠ .expire ∧ a ≠ .giveUp ∧ a ≠ .reply) ∧
    ((Sys.init f data max).run build (as ++ bs)).phase = .ok ∧
    ((Sys.init f data max).run build (as ++ bs)).recv.left = true ∧
    ((Sys.init f data max).run build (as ++ bs)).recv.transfer.data = data

/-- **C106, full statement**: whatever was lost, repeated or reordered so far, a transfer that is still
running can be finished. -/
def C106_full : Prop := ∀ (f : Fec), f.Lawful → ∀ (data : Bytes), data ≠ [] → data.length < 2 ^ 32 →
  ∀ (max : Nat), data.length ≤ max → ∀ (build : Build) (as : List Act), (∀ a ∈ as, a ≠ .expire) →
    ((Sys.init f data max).run build as).phase.running = true → CanFinish f data max build as

/-- The source symbols handed out by the encoder are on the network. -/
def Sent (s : Sys f) : Prop := ∀ e, s.out.enc = some e → e.next ≤ f.count e.data ∧
  ∀ i, i < e.next → (⟨f.params e.data, s.out.cur, s.out.data.length, i, f.symbol e.data i⟩ : Part) ∈ s.net

theorem sent_keep {s s' : Sys f} (h : Sent s) (h1 : s'.out.enc = s.out.enc) (h2 : s'.out.cur = s.out.cur)
    (h3 : s'.out.data = s.out.data) (h4 : s'.net = s.net) : Sent s' := by
  intro e he
  rw [h1] at he
  rw [h2, h3, h4]
  exact h e he

/-- `prepare_chunk` in a release build. -/
theorem prepareChunk_release (t : Outgoing) {e : Enc} (he : t.enc = some e) :
    ∃ st, t.prepareChunk f .release = (⟨t.data, t.cur, some (e.encode f t.st.seqnoOut).2, st⟩,
      .part ⟨f.params e.data, t.cur, t.data.length, (e.encode f t.st.seqnoOut).1,
        f.symbol e.data (e.encode f t.st.seqnoOut).1⟩) ∧ st.part = t.st.part ∧ st.hasReply = t.st.hasReply := by
  have hs : ∀ a b, ∃ w, subU32 .release a b = some w := by
    intro a b; unfold subU32; split <;> exact ⟨_, rfl⟩
  have ha : ∀ a b, ∃ w, addU32 .release a b = some w := by
    intro a b; unfold addU32; split <;> exact ⟨_, rfl⟩
  unfold Outgoing.prepareChunk
  rw [he]
  simp only
  obtain ⟨w, hw⟩ := hs (e.encode f t.st.seqnoOut).1 t.st.seqnoIn
  rw [hw]
  simp only
  split
  · split
    · obtain ⟨n', hn⟩ := ha (e.encode f t.st.seqnoOut).1 1
      rw [hn]
      exact ⟨_, rfl, rfl, rfl⟩
    · exact ⟨_, rfl, rfl, rfl⟩
  · exact ⟨_, rfl, rfl, rfl⟩

theorem sent_step {s : Sys f} (h : Sent s) (a : Act) : Sent (s.step .release a) := by
  cases a with
  | begin =>
    simp only [Sys.step]
    split
    · unfold Sys.begin
      have key : (s.out.startNextPart f).1 = s.out ∨
          ∃ d, (s.out.startNextPart f).1.enc = some ⟨d, 0⟩ := by
        unfold Outgoing.startNextPart
        split
        · exact .inl rfl
        · split
          · exact .inl rfl
          · exact .inr ⟨_, rfl⟩
      generalize s.out.startNextPart f = x at key
      obtain ⟨o, r⟩ := x
      have : ∀ s' : Sys f, s'.out = o → s'.net = s.net → Sent s' := by
        intro s' e1 e2
        rcases key with e | ⟨d, e⟩
        · exact sent_keep h (by rw [e1]; exact congrArg Outgoing.enc e) (by rw [e1]; exact congrArg Outgoing.cur e)
            (by rw [e1]; exact congrArg Outgoing.data e) e2
        · intro x hx
          rw [e1, e] at hx
          cases hx
          exact ⟨Nat.zero_le _, fun i hi => absurd hi (Nat.not_lt_zero _)⟩
      cases r <;> exact this _ rfl rfl
    · exact h
  | bind => simp only [Sys.step]; split <;> exact h
  | chunk =>
    simp only [Sys.step]
    split
    · unfold Sys.chunk
      cases he : s.out.enc with
      | none =>
        have : s.out.prepareChunk f .release = (s.out, .notReady) := by
          unfold Outgoing.prepareChunk; rw [he]
        rw [this]
        exact h
      | some e =>
        obtain ⟨st, hst, -, -⟩ := prepareChunk_release (f := f) s.out he
        rw [hst]
        intro x hx
        simp only [Option.some.injEq] at hx
        obtain ⟨h1, h2⟩ := h e he
        by_cases hn : e.next < f.count e.data
        · have e1 : e.encode f s.out.st.seqnoOut = (e.next, { e with next := e.next + 1 }) := if_pos hn
          simp only [e1] at hx ⊢
          subst hx
          refine ⟨hn, fun i hi => ?_⟩
          rcases Nat.lt_succ_iff_lt_or_eq.mp hi with hi | rfl
          · exact List.mem_append_left _ (h2 i hi)
          · exact List.mem_append_right _ List.mem_cons_self
        · have e1 : e.encode f s.out.st.seqnoOut = (f.repairId e.data s.out.st.seqnoOut, e) := if_neg hn
          simp only [e1] at hx ⊢
          subst hx
          exact ⟨h1, fun i hi => List.mem_append_left _ (h2 i hi)⟩
    · exact h
  | check =>
    simp only [Sys.step]
    split
    · unfold Sys.check; split <;> exact h
    · exact h
  | giveUp => simp only [Sys.step]; split <;> exact h
  | deliver i =>
    simp only [Sys.step]
    split
    · unfold Sys.receive; split <;> exact h
    · exact h
  | ack i =>
    simp only [Sys.step]
    split
    · split <;> exact h
    · exact h
  | reply => simp only [Sys.step]; split <;> exact h
  | expire => exact h

theorem sent_run (as : List Act) : ∀ {s : Sys f}, Sent s → Sent (s.run .release as) := by
  induction as with
  | nil => intro s h; exact h
  | cons a as ih => intro s h; exact ih (sent_step h a)

/-! ### The steps of the continuation -/

/-- No timeouts, and no help from an answer. -/
def Calm (as : List Act) : Prop := ∀ a ∈ as, a ≠ .expire ∧ a ≠ .giveUp ∧ a ≠ .reply

theorem run_append (build : Build) (s : Sys f) (as bs : List Act) :
    s.run build (as ++ bs) = (s.run build as).run build bs := by
  simp [Sys.run, List.foldl_append]

/-- Sending until the encoder has handed out all source symbols. -/
theorem send_all (p : Nat) : ∀ (k : Nat) (s : Sys f) (e : Enc), s.phase = .sending p → s.out.enc = some e →
    f.count e.data - e.next ≤ k → ∃ bs e', Calm bs ∧ (s.run .release bs).phase = .sending p ∧
      (s.run .release bs).out.enc = some e' ∧ e'.data = e.data ∧ f.count e.data ≤ e'.next ∧
      (s.run .release bs).out.st.part = s.out.st.part := by
  intro k
  induction k with
  | zero => intro s e hp he hk; exact ⟨[], e, fun _ h => absurd h List.not_mem_nil, hp, he, rfl, by omega, rfl⟩
  | succ k ih =>
    intro s e hp he hk
    by_cases hn : e.next < f.count e.data
    · obtain ⟨st, hst, hpart, -⟩ := prepareChunk_release (f := f) s.out he
      have e1 : e.encode f s.out.st.seqnoOut = (e.next, { e with next := e.next + 1 }) := if_pos hn
      have hstep : s.step .release .chunk = s.chunk .release := by simp only [Sys.step, hp]
      have hc : s.chunk .release = { s with
          out := ⟨s.out.data, s.out.cur, some { e with next := e.next + 1 }, st⟩,
          net := s.net ++ [⟨f.params e.data, s.out.cur, s.out.data.length, e.next, f.symbol e.data e.next⟩] } := by
        unfold Sys.chunk
        rw [hst, e1]
      obtain ⟨bs, e', h1, h2, h3, h4, h5, h6⟩ := ih (s.chunk .release) { e with next := e.next + 1 }
        (by rw [hc]; exact hp) (by rw [hc]) (by simp only; omega)
      have hrun : s.run .release (.chunk :: bs) = (s.chunk .release).run .release bs := by
        show (s.step .release .chunk).run .release bs = _
        rw [hstep]
      refine ⟨.chunk :: bs, e', ?_, by rw [hrun]; exact h2, by rw [hrun]; exact h3, h4, h5, ?_⟩
      · intro a ha
        rcases List.mem_cons.mp ha with rfl | ha
        · exact ⟨by decide, by decide⟩
        · exact h1 a ha
      · rw [hrun, h6, hc]; exact hpart
    · exact ⟨[], e, fun _ h => absurd h List.not_mem_nil, hp, he, rfl, by omega, rfl⟩

theorem receive_recv (s : Sys f) (hx : s.expired = false) (m : Part) : (s.receive m).recv = (s.recv.step m).1 := by
  unfold Sys.receive
  rw [hx, Bool.false_or]
  split
  · rename_i h; simp only [Receiving.step, h, if_true]
  · rfl

theorem receive_rest (s : Sys f) (m : Part) : (s.receive m).out = s.out ∧ (s.receive m).phase = s.phase ∧
    (s.receive m).net = s.net ∧ (s.receive m).expired = s.expired ∧
    (∀ a ∈ s.back, a ∈ (s.receive m).back) := by
  unfold Sys.receive
  split
  · exact ⟨rfl, rfl, rfl, rfl, fun a h => List.mem_append_left _ h⟩
  · exact ⟨rfl, rfl, rfl, rfl, fun a h => List.mem_append_left _ h⟩

/-- Delivering messages that are on the network. -/
theorem deliver_all (ms : List Part) : ∀ (s : Sys f), s.expired = false → (∀ m ∈ ms, m ∈ s.net) →
    ∃ bs, Calm bs ∧ (s.run .release bs).recv = s.recv.run ms ∧ (s.run .release bs).out = s.out ∧
      (s.run .release bs).phase = s.phase ∧ (s.run .release bs).net = s.net ∧
      (s.run .release bs).expired = false := by
  induction ms with
  | nil => intro s hx _; exact ⟨[], fun _ h => absurd h List.not_mem_nil, rfl, rfl, rfl, rfl, hx⟩
  | cons m ms ih =>
    intro s hx hm
    obtain ⟨i, hi⟩ := List.mem_iff_getElem?.mp (hm m List.mem_cons_self)
    obtain ⟨r1, r2, r3, r4, -⟩ := receive_rest s m
    obtain ⟨bs, h1, h2, h3, h4, h5, h6⟩ := ih (s.receive m) (r4.trans hx)
      (fun x hx => by rw [r3]; exact hm x (List.mem_cons_of_mem _ hx))
    have hrun : s.run .release (.deliver i :: bs) = (s.receive m).run .release bs := by
      show (s.step .release (.deliver i)).run .release bs = _
      simp only [Sys.step, hi]
    refine ⟨.deliver i :: bs, ?_, ?_, by rw [hrun, h3, r1], by rw [hrun, h4, r2], by rw [hrun, h5, r3],
      by rw [hrun, h6]⟩
    · intro a ha
      rcases List.mem_cons.mp ha with rfl | ha
      · exact ⟨by simp, by simp⟩
      · exact h1 a ha
    · rw [hrun, h2, receive_recv s hx]; rfl

/-- All source symbols of the current part of the receiver decode it. -/
theorem all_decode (hf : f.Lawful) {data : Bytes} {r : Receiving f} {ns : List Nat} (h : Honest data r ns) (p : Nat)
    (hin : p * sliceLen < data.length) (hp : r.left = true ∨ p ≤ r.transfer.part) :
    (r.run (((List.range (f.count (partData data p))).map fun i => (p, i)).map
      fun x => honestPart f data x.1 x.2)).Decoded p := by
  obtain ⟨ns', i1, i2, i3, i4⟩ := run_honest hf ((List.range (f.count (partData data p))).map fun i => (p, i)) h
  generalize r.run (((List.range (f.count (partData data p))).map fun i => (p, i)).map
      fun x => honestPart f data x.1 x.2) = r' at i1 i2 i3 i4 ⊢
  by_cases hl : r'.left = true
  · exact .inr hl
  have hl' : r'.left = false := by simpa using hl
  rcases hp with hp | hp
  · exact .inr (i3 hp)
  by_cases hpp : p < r'.transfer.part
  · exact .inl hpp
  have e1 : r.transfer.part = p := by omega
  have e2 : r'.transfer.part = p := by omega
  obtain ⟨-, j⟩ := i4 hl' (e2.trans e1.symm)
  rw [e1] at j
  have hall : ∀ i, i < f.count (partData data p) → i ∈ ns' := fun i hi =>
    j i (List.mem_map.mpr ⟨i, List.mem_range.mpr hi, rfl⟩)
  obtain ⟨x, hx⟩ := hf.complete _ (partData_ne_nil hin) (partData_le _ _) ns' hall
  have hd := i1.dec hl'
  unfold DecOk at hd
  rw [e2] at hd
  cases hdec : r'.transfer.decoder with
  | none =>
    rw [hdec] at hd
    simp only at hd
    subst hd
    exact absurd (hall 0 (hf.count_pos _ (partData_ne_nil hin))) List.not_mem_nil
  | some pd =>
    obtain ⟨ps, dec⟩ := pd
    rw [hdec] at hd
    obtain ⟨q1, q2⟩ := hd
    rw [q1, hx] at q2
    cases q2

/-- A message of a part that is decoded is answered with `Complete`. -/
theorem decoded_answer {data : Bytes} {s : Sys f} {ns : List Nat} (h : Honest data s.recv ns) (hx : s.expired = false)
    (p n : Nat) (hd : s.recv.Decoded p) : Ack.complete p ∈ (s.receive (honestPart f data p n)).back := by
  unfold Sys.receive
  rw [hx, Bool.false_or]
  split
  · simp [honestPart]
  · rename_i hl
    have hl' : s.recv.left = false := by simpa using hl
    have hlt : p < s.recv.transfer.part := hd.resolve_right (by rw [hl']; decide)
    refine List.mem_append_right _ ?_
    have : (s.recv.step (honestPart f data p n)).2 = some (.complete p) := by
      unfold Receiving.step
      rw [if_neg hl]
      simp only
      unfold Incoming.processChunk
      rcases h.total with ht | ht
      · rw [ht]
        simp only
        rw [if_neg (show ¬ (honestPart f data p n).totalSize > s.recv.transfer.maxSize from Nat.not_lt.mpr h.max)]
        unfold Incoming.partStep
        rw [if_pos (show (honestPart f data p n).part < s.recv.transfer.part from hlt)]
        rfl
      · rw [ht]
        simp only
        rw [if_neg (show ¬ data.length ≠ (honestPart f data p n).totalSize from fun e => e rfl)]
        unfold Incoming.partStep
        rw [if_pos (show (honestPart f data p n).part < s.recv.transfer.part from hlt)]
        rfl
    rw [this]
    exact List.mem_cons_self

/-- The confirmation of the part that is being sent. -/
theorem ack_current (st : OutState) (p : Nat) (hp : st.part = p) (h32 : p + 1 < 2 ^ 32) :
    (st.ack .release (.complete p)).part = p + 1 := by
  have e1 : addU32 .release p 1 = some (p + 1) := if_pos h32
  have e2 : subU32 .release (p + 1) 1 = some p := by
    unfold subU32; rw [if_pos (by omega)]; rfl
  simp only [OutState.ack, OutState.complete, e1, OutState.setPart, e2, if_pos hp, Option.getD_some]

/-! ### C106 -/

/-- A part that is being sent can be finished: the sender gets to the start of the next one. -/
theorem part_done (hf : f.Lawful) {data : Bytes} (h32 : data.length < 2 ^ 32) {s : Sys f} {b p : Nat}
    (h : SInv data s b) (hs : Sent s) (hp : s.phase = .sending p) (hst : s.out.st.part = p) :
    ∃ bs, Calm bs ∧ (s.run .release bs).phase = .sending p ∧ (s.run .release bs).out.st.part = p + 1 := by
  obtain ⟨e, he⟩ := Option.isSome_iff_exists.mp (h.atSending p hp).2.2.2
  obtain ⟨bs1, e', c1, p1, en1, d1, n1, t1⟩ := send_all p _ s e hp he (Nat.le_refl _)
  obtain ⟨b1, h1⟩ := run_inv hf .release h32 bs1 h (fun a ha => (c1 a ha).1)
  have hs1 := sent_run bs1 hs
  generalize hg1 : s.run .release bs1 = s1 at p1 en1 t1 h1 hs1
  obtain ⟨hcur, hb1, -, -⟩ := h1.atSending p p1
  obtain ⟨hd1, hin⟩ := h1.enc e' en1
  rw [hcur] at hd1 hin
  obtain ⟨hle, hsrc⟩ := hs1 e' en1
  rw [← d1] at n1
  have hnet : ∀ i, i < f.count (partData data p) → honestPart f data p i ∈ s1.net := by
    intro i hi
    have := hsrc i (by rw [hd1] at n1; omega)
    rw [hd1, hcur, h1.dataEq] at this
    exact this
  obtain ⟨ns, hh⟩ := h1.honest
  have hrp : s1.recv.left = true ∨ p ≤ s1.recv.transfer.part := by
    by_cases hp0 : p = 0
    · exact .inr (by omega)
    · rcases h1.dec (p - 1) (by omega) with h | h
      · exact .inr (by omega)
      · exact .inl h
  obtain ⟨bs2, c2, r2, o2, p2, n2, x2⟩ := deliver_all
    (((List.range (f.count (partData data p))).map fun i => (p, i)).map fun x => honestPart f data x.1 x.2) s1 h1.alive
    (by
      intro m hm
      obtain ⟨x, hx, rfl⟩ := List.mem_map.mp hm
      obtain ⟨i, hi, rfl⟩ := List.mem_map.mp hx
      exact hnet i (List.mem_range.mp hi))
  have hdec := all_decode hf hh p hin hrp
  rw [← r2] at hdec
  obtain ⟨b2, h2⟩ := run_inv hf .release h32 bs2 h1 (fun a ha => (c2 a ha).1)
  generalize hg2 : s1.run .release bs2 = s2 at r2 o2 p2 n2 x2 hdec h2
  have hc0 := hf.count_pos _ (partData_ne_nil hin)
  obtain ⟨i, hi⟩ := List.mem_iff_getElem?.mp (show honestPart f data p 0 ∈ s2.net by rw [n2]; exact hnet 0 hc0)
  obtain ⟨ns2, hh2⟩ := h2.honest
  have hback := decoded_answer hh2 x2 p 0 hdec
  obtain ⟨q1, q2, q3, q4, q5⟩ := receive_rest s2 (honestPart f data p 0)
  obtain ⟨j, hj⟩ := List.mem_iff_getElem?.mp hback
  refine ⟨bs1 ++ (bs2 ++ [.deliver i, .ack j]), ?_, ?_⟩
  · intro a ha
    simp only [List.mem_append, List.mem_cons, List.not_mem_nil, or_false] at ha
    rcases ha with ha | ha | rfl | rfl
    · exact c1 a ha
    · exact c2 a ha
    · exact ⟨by simp, by simp⟩
    · exact ⟨by simp, by simp⟩
  · rw [run_append, hg1, run_append, hg2]
    have hph : (s2.receive (honestPart f data p 0)).phase = .sending p := by rw [q2, p2, p1]
    have hfin : s2.run .release [.deliver i, .ack j] =
        { s2.receive (honestPart f data p 0) with
          out := { (s2.receive (honestPart f data p 0)).out with
            st := (s2.receive (honestPart f data p 0)).out.st.ack .release (.complete p) } } := by
      show ((s2.step .release (.deliver i)).step .release (.ack j)) = _
      have e1 : s2.step .release (.deliver i) = s2.receive (honestPart f data p 0) := by
        simp only [Sys.step, hi]
      rw [e1]
      simp only [Sys.step, hj, hph, Phase.running, if_true]
    rw [hfin]
    refine ⟨hph, ?_⟩
    have hst2 : (s2.receive (honestPart f data p 0)).out.st.part = p := by rw [q1, o2, t1, hst]
    have : p * 2000000 < data.length := hin
    exact ack_current _ p hst2 (by omega)

/-- The check after the part was confirmed. -/
theorem check_next {s : Sys f} {p : Nat} (hp : s.phase = .sending p) (hst : s.out.st.part = p + 1)
    (h32 : p + 1 < 2 ^ 32) : s.step .release .check = { s with phase := .start } := by
  have e1 : addU32 .release p 1 = some (p + 1) := if_pos h32
  have : s.out.finishedOrNext .release p = .yes := by
    unfold Outgoing.finishedOrNext
    split
    · rfl
    · rw [if_neg (by omega), e1]
      simp only
      rw [if_pos hst]
  simp only [Sys.step, hp, Sys.check, this]

theorem cons_run (build : Build) (s : Sys f) (a : Act) (as : List Act) :
    s.run build (a :: as) = (s.step build a).run build as := rfl

theorem calm_cons {a : Act} {as : List Act} (h1 : a ≠ .expire) (h2 : a ≠ .giveUp ∧ a ≠ .reply) (h : Calm as) : Calm (a :: as) := by
  intro x hx
  rcases List.mem_cons.mp hx with rfl | hx
  · exact ⟨h1, h2⟩
  · exact h x hx

theorem calm_append {as bs : List Act} (h : Calm as) (h' : Calm bs) : Calm (as ++ bs) := by
  intro x hx
  rcases List.mem_append.mp hx with hx | hx
  · exact h x hx
  · exact h' x hx

/-- From the beginning of a part, with `k` parts left at most. -/
theorem finish_start (hf : f.Lawful) {data : Bytes} (h32 : data.length < 2 ^ 32) : ∀ (k : Nat) (s : Sys f) (b : Nat),
    SInv data s b → Sent s → s.phase = .start → data.length ≤ (s.out.st.part + k) * sliceLen →
    ∃ bs, Calm bs ∧ (s.run .release bs).phase = .ok := by
  intro k
  induction k with
  | zero =>
    intro s b h hs hp hk
    refine ⟨[.begin], calm_cons (by simp) (by simp) (fun _ h => absurd h List.not_mem_nil), ?_⟩
    show (s.step .release .begin).phase = .ok
    simp only [Sys.step, hp, if_true]
    have e : s.out.startNextPart f = (s.out, none) := by
      unfold Outgoing.startNextPart
      split
      · rfl
      · rw [if_pos (by rw [h.dataEq]; exact hk)]
    unfold Sys.begin
    rw [e]
  | succ k ih =>
    intro s b h hs hp hk
    have hb : s.step .release .begin = s.begin := by simp only [Sys.step, hp, if_true]
    have h1 := begin_inv hf h hp
    have hs1 : Sent s.begin := by rw [← hb]; exact sent_step hs .begin
    have hcase : s.begin.phase = .ok ∨ (s.begin.phase = .begun ∧ s.begin.out.st.part = s.out.st.part) := by
      unfold Sys.begin
      have e : (s.out.startNextPart f).1.st = s.out.st := by
        unfold Outgoing.startNextPart
        split
        · rfl
        · split <;> rfl
      generalize s.out.startNextPart f = x at e
      obtain ⟨o, r⟩ := x
      cases r with
      | none => exact .inl rfl
      | some _ => exact .inr ⟨rfl, congrArg OutState.part e⟩
    rcases hcase with hok | ⟨hbeg, hpart⟩
    · refine ⟨[.begin], calm_cons (by simp) (by simp) (fun _ h => absurd h List.not_mem_nil), ?_⟩
      show (s.step .release .begin).phase = .ok
      rw [hb, hok]
    · -- the part is sent
      obtain ⟨b2, h2⟩ := step_inv hf .release h32 h1 .bind (by simp)
      have hs2 := sent_step hs1 .bind
      have hbind : s.begin.step .release .bind = { s.begin with phase := .sending s.begin.out.st.part } := by
        simp only [Sys.step, hbeg, if_true]
      obtain ⟨bs, c, p3, t3⟩ := part_done hf h32 h2 hs2 (p := s.begin.out.st.part) (by rw [hbind]) (by rw [hbind])
      obtain ⟨b3, h3⟩ := run_inv hf .release h32 bs h2 (fun a ha => (c a ha).1)
      have hs3 := sent_run bs hs2
      generalize hg : (s.begin.step .release .bind).run .release bs = s3 at p3 t3 h3 hs3
      have hsm : s.begin.out.st.part + 1 < 2 ^ 32 := by
        obtain ⟨e, he⟩ := Option.isSome_iff_exists.mp (h3.atSending _ p3).2.2.2
        have : s3.out.cur * 2000000 < data.length := (h3.enc e he).2
        rw [(h3.atSending _ p3).1] at this
        omega
      have hchk := check_next p3 t3 hsm
      obtain ⟨b4, h4⟩ := step_inv hf .release h32 h3 .check (by simp)
      have hs4 := sent_step hs3 .check
      rw [hchk] at h4 hs4
      obtain ⟨bs', c', p5⟩ := ih _ b4 h4 hs4 rfl (by
        show data.length ≤ (s3.out.st.part + k) * sliceLen
        rw [t3, hpart, show s.out.st.part + 1 + k = s.out.st.part + (k + 1) by omega]
        exact hk)
      refine ⟨.begin :: .bind :: (bs ++ .check :: bs'), ?_, ?_⟩
      · exact calm_cons (by simp) (by simp) (calm_cons (by simp) (by simp)
          (calm_append c (calm_cons (by simp) (by simp) c')))
      · rw [cons_run, hb, cons_run, run_append, hg, cons_run, hchk]
        exact p5

/-- From any state that is still running. -/
theorem finish_running (hf : f.Lawful) {data : Bytes} (h32 : data.length < 2 ^ 32) (s : Sys f) (b : Nat)
    (h : SInv data s b) (hs : Sent s) (hr : s.phase.running = true) :
    ∃ bs, Calm bs ∧ (s.run .release bs).phase = .ok := by
  have enough : ∀ n : Nat, data.length ≤ (n + data.length) * sliceLen := by
    intro n
    have : (n + data.length) * 2000000 = (n + data.length) * sliceLen := rfl
    omega
  have sending : ∀ (s : Sys f) (b p : Nat), SInv data s b → Sent s → s.phase = .sending p →
      ∃ bs, Calm bs ∧ (s.run .release bs).phase = .ok := by
    intro s b p h hs hp
    have hp4 := h.atSending p hp
    obtain ⟨e, he⟩ := Option.isSome_iff_exists.mp hp4.2.2.2
    have hin : s.out.cur * 2000000 < data.length := (h.enc e he).2
    rw [hp4.1] at hin
    have hnext : ∃ bs, Calm bs ∧ (s.run .release bs).phase = .sending p ∧
        (s.run .release bs).out.st.part = p + 1 := by
      by_cases e : s.out.st.part = p
      · exact part_done hf h32 h hs hp e
      · have := h.part
        exact ⟨[], fun _ h => absurd h List.not_mem_nil, hp, show s.out.st.part = p + 1 by omega⟩
    obtain ⟨bs, c, p3, t3⟩ := hnext
    obtain ⟨b3, h3⟩ := run_inv hf .release h32 bs h (fun a ha => (c a ha).1)
    have hs3 := sent_run bs hs
    generalize hg : s.run .release bs = s3 at p3 t3 h3 hs3
    have hchk := check_next p3 t3 (by omega)
    obtain ⟨b4, h4⟩ := step_inv hf .release h32 h3 .check (by simp)
    have hs4 := sent_step hs3 .check
    rw [hchk] at h4 hs4
    obtain ⟨bs', c', p5⟩ := finish_start hf h32 _ _ b4 h4 hs4 rfl (enough _)
    refine ⟨bs ++ .check :: bs', calm_append c (calm_cons (by simp) (by simp) c'), ?_⟩
    rw [run_append, hg, cons_run, hchk]
    exact p5
  cases hp : s.phase with
  | ok => rw [hp] at hr; cases hr
  | failed => rw [hp] at hr; cases hr
  | start => exact finish_start hf h32 _ s b h hs hp (enough _)
  | sending p => exact sending s b p h hs hp
  | begun =>
    have hbind : s.step .release .bind = { s with phase := .sending s.out.st.part } := by
      simp only [Sys.step, hp, if_true]
    obtain ⟨b2, h2⟩ := step_inv hf .release h32 h .bind (by simp)
    obtain ⟨bs, c, p5⟩ := sending _ b2 s.out.st.part h2 (sent_step hs .bind) (by rw [hbind])
    exact ⟨.bind :: bs, calm_cons (by simp) (by simp) c, p5⟩

/-- In a release build: whatever was lost, repeated or reordered so far, and whatever confirmations are still
missing, a transfer that is running can be finished, as long as the receiver's entry did not expire. -/
theorem C106_release_partial (f : Fec) (hf : f.Lawful) (data : Bytes) (hd : data ≠ []) (h32 : data.length < 2 ^ 32)
    (max : Nat) (hm : data.length ≤ max) (as : List Act) (ha : ∀ a ∈ as, a ≠ .expire)
    (hr : ((Sys.init f data max).run .release as).phase.running = true) : CanFinish f data max .release as := by
  obtain ⟨b, h⟩ := run_inv hf .release h32 as (sinv_init f hd hm) ha
  obtain ⟨bs, c, ho⟩ := finish_running hf h32 _ b h (sent_run as (fun e he => by cases he)) hr
  refine ⟨bs, c, by rw [run_append]; exact ho, ?_⟩
  obtain ⟨b', h'⟩ := run_inv hf .release h32 (as ++ bs) (sinv_init f hd hm) (fun a h => by
    rcases List.mem_append.mp h with h | h
    · exact ha a h
    · exact (c a h).1)
  have hl := h'.atOk (by rw [run_append]; exact ho)
  obtain ⟨ns, hh⟩ := h'.honest
  exact ⟨hl, hh.left hl⟩

/-! ### Debug builds -/

/-- Invariant of a stuck transfer: something is confirmed before the second part begins, and no symbol of the
second part gets out. -/
structure Stuck (data : Bytes) (s : Sys f) : Prop where
  inv : ∃ b, SInv data s b
  confirmed : 1 ≤ s.out.st.seqnoIn
  net : ∀ m ∈ s.net, m.part = 0
  left : s.recv.left = false
  fresh : s.phase = .failed ∨ ∀ e, s.out.enc = some e → 1 ≤ s.out.cur → e.next = 0

theorem ack_seqnoIn (build : Build) (st : OutState) (a : Ack) : st.seqnoIn ≤ (st.ack build a).seqnoIn := by
  cases a with
  | confirm p n =>
    simp only [OutState.ack, OutState.confirm, OutState.setSeqnoIn]
    split
    · split
      · exact Nat.le_refl _
      · exact Nat.le_max_left _ _
    · exact Nat.le_refl _
  | complete q =>
    simp only [OutState.ack, OutState.complete, OutState.setPart]
    split
    · exact Nat.le_refl _
    · split
      · exact Nat.le_refl _
      · simp only [Option.getD_some]
        split <;> exact Nat.le_refl _

theorem stuck_step (hf : f.Lawful) {data : Bytes} (h32 : data.length < 2 ^ 32) (hbig : sliceLen < data.length)
    {s : Sys f} (h : Stuck data s) (a : Act) (ha : a ≠ .expire) : Stuck data (s.step .debug a) := by
  obtain ⟨b, hi⟩ := h.inv
  have hinv := step_inv hf .debug h32 hi a ha
  cases a with
  | expire => exact absurd rfl ha
  | begin =>
    simp only [Sys.step] at hinv ⊢
    split
    · rename_i hp
      rw [if_pos hp] at hinv
      refine ⟨hinv, ?_, ?_, ?_, ?_⟩
      all_goals
        have hfr := h.fresh.resolve_left (by rw [hp]; simp)
        clear hinv
        unfold Sys.begin
        have e : (s.out.startNextPart f).1.st = s.out.st ∧
            ((s.out.startNextPart f).1 = s.out ∨ ∃ d, (s.out.startNextPart f).1.enc = some ⟨d, 0⟩) := by
          unfold Outgoing.startNextPart
          split
          · exact ⟨rfl, .inl rfl⟩
          · split
            · exact ⟨rfl, .inl rfl⟩
            · exact ⟨rfl, .inr ⟨_, rfl⟩⟩
        generalize s.out.startNextPart f = x at e
        obtain ⟨o, r⟩ := x
        obtain ⟨e1, e2⟩ := e
        simp only at e1 e2
      · cases r <;> (show 1 ≤ o.st.seqnoIn; rw [e1]; exact h.confirmed)
      · cases r <;> exact h.net
      · cases r <;> exact h.left
      · have key : ∀ e, o.enc = some e → 1 ≤ o.cur → e.next = 0 := by
          intro e he hc
          rcases e2 with e2 | ⟨d, e2⟩
          · subst e2; exact hfr e he hc
          · rw [e2] at he; cases he; rfl
        cases r <;> exact .inr key
    · exact h
  | bind =>
    simp only [Sys.step] at hinv ⊢
    split
    · rename_i hp
      rw [if_pos hp] at hinv
      exact ⟨hinv, h.confirmed, h.net, h.left, .inr (h.fresh.resolve_left (by rw [hp]; simp))⟩
    · exact h
  | chunk =>
    simp only [Sys.step] at hinv ⊢
    split
    · rename_i p hp
      rw [hp] at hinv
      simp only at hinv
      have hfr := h.fresh.resolve_left (by rw [hp]; simp)
      have hp4 := hi.atSending p hp
      obtain ⟨e, he⟩ := Option.isSome_iff_exists.mp hp4.2.2.2
      have hpc := prepareChunk_spec f .debug s.out he
      have hed := hi.enc e he
      have hseq : (s.out.prepareChunk f .debug).1.st.seqnoIn = s.out.st.seqnoIn := by
        unfold Outgoing.prepareChunk
        rw [he]
        simp only
        split
        · rfl
        · split
          · split
            · split <;> rfl
            · rfl
          · rfl
      by_cases hc : 1 ≤ s.out.cur
      · -- the number 0 is below what is confirmed
        have hn0 := hfr e he hc
        have hcp : 0 < f.count e.data := by
          rw [hed.1]; exact hf.count_pos _ (partData_ne_nil hed.2)
        have hpan : (s.out.prepareChunk f .debug).2 = .panic := by
          refine (C40_panic_iff_partial f s.out 0 ?_).mpr (.inl h.confirmed)
          unfold Outgoing.nextNumber
          rw [he]
          simp only [Option.map_some, Enc.encode, hn0, if_pos hcp]
        unfold Sys.chunk at hinv ⊢
        generalize s.out.prepareChunk f .debug = x at hpan hseq hinv ⊢
        obtain ⟨o, r⟩ := x
        simp only at hpan hseq
        subst hpan
        exact ⟨hinv, by show 1 ≤ o.st.seqnoIn; rw [hseq]; exact h.confirmed, h.net, h.left, .inl rfl⟩
      · unfold Sys.chunk at hinv ⊢
        generalize s.out.prepareChunk f .debug = x at hpc hseq hinv ⊢
        obtain ⟨o, r⟩ := x
        simp only at hpc hseq
        have hcur : ¬ 1 ≤ o.cur := by rw [hpc.2.1]; exact hc
        cases r with
        | part m =>
          refine ⟨hinv, by show 1 ≤ o.st.seqnoIn; rw [hseq]; exact h.confirmed, ?_, h.left,
            .inr fun e _ h => absurd h hcur⟩
          intro x hx
          rcases List.mem_append.mp hx with hx | hx
          · exact h.net x hx
          · obtain ⟨n, e⟩ := hpc.2.2.2.2.2 m rfl
            rw [List.mem_singleton.mp hx, e]
            show s.out.cur = 0
            omega
        | notReady => exact ⟨hinv, by show 1 ≤ o.st.seqnoIn; rw [hseq]; exact h.confirmed, h.net, h.left, .inl rfl⟩
        | panic => exact ⟨hinv, by show 1 ≤ o.st.seqnoIn; rw [hseq]; exact h.confirmed, h.net, h.left, .inl rfl⟩
    · exact h
  | check =>
    simp only [Sys.step] at hinv ⊢
    split
    · rename_i p hp
      rw [hp] at hinv
      simp only at hinv
      have hfr := h.fresh.resolve_left (by rw [hp]; simp)
      unfold Sys.check at hinv ⊢
      generalize s.out.finishedOrNext .debug p = x at hinv ⊢
      cases x with
      | no => exact h
      | yes => exact ⟨hinv, h.confirmed, h.net, h.left, .inr hfr⟩
      | mismatch => exact ⟨hinv, h.confirmed, h.net, h.left, .inl rfl⟩
      | panic => exact ⟨hinv, h.confirmed, h.net, h.left, .inl rfl⟩
    · exact h
  | giveUp =>
    simp only [Sys.step] at hinv ⊢
    split
    · rename_i p hp
      rw [hp] at hinv
      exact ⟨hinv, h.confirmed, h.net, h.left, .inl rfl⟩
    · exact h
  | deliver i =>
    simp only [Sys.step] at hinv ⊢
    cases hm : s.net[i]? with
    | none => exact h
    | some m =>
      rw [hm] at hinv
      simp only at hinv ⊢
      have hmem := List.mem_of_getElem? hm
      obtain ⟨q1, q2, q3, q4, q5⟩ := receive_rest s m
      refine ⟨hinv, by rw [q1]; exact h.confirmed, by rw [q3]; exact h.net, ?_, by rw [q1, q2]; exact h.fresh⟩
      rw [receive_recv s hi.alive]
      obtain ⟨p, n, e, -, -⟩ := hi.net m hmem
      have hp0 : p = 0 := by have := h.net m hmem; rw [e] at this; exact this
      subst e hp0
      obtain ⟨ns, hh⟩ := hi.honest
      cases step_honest hf hh 0 n with
      | same _ _ el _ _ => exact el.trans h.left
      | more _ _ el _ _ _ => exact el
      | next _ _ el _ _ _ => exact el
      | last _ _ _ _ _ _ hlast => omega
  | ack i =>
    simp only [Sys.step] at hinv ⊢
    cases hm : s.back[i]? with
    | none => exact h
    | some x =>
      rw [hm] at hinv
      simp only at hinv ⊢
      split
      · rename_i hr
        rw [if_pos hr] at hinv
        exact ⟨hinv, Nat.le_trans h.confirmed (ack_seqnoIn _ _ _), h.net, h.left, h.fresh⟩
      · exact h
  | reply =>
    simp only [Sys.step]
    rw [if_neg (by rw [h.left]; decide)]
    exact h

theorem stuck_run (hf : f.Lawful) {data : Bytes} (h32 : data.length < 2 ^ 32) (hbig : sliceLen < data.length)
    (as : List Act) : ∀ {s : Sys f}, Stuck data s → (∀ a ∈ as, a ≠ .expire) → Stuck data (s.run .debug as) := by
  induction as with
  | nil => intro s h _; exact h
  | cons a as ih =>
    intro s h ha
    exact ih (stuck_step hf h32 hbig h a (ha a List.mem_cons_self)) fun x hx => ha x (List.mem_cons_of_mem _ hx)

theorem net_step (build : Build) (s : Sys f) (a : Act) : ∀ m ∈ s.net, m ∈ (s.step build a).net := by
  intro m hm
  cases a with
  | begin =>
    simp only [Sys.step]
    split
    · unfold Sys.begin; split <;> exact hm
    · exact hm
  | bind => simp only [Sys.step]; split <;> exact hm
  | chunk =>
    simp only [Sys.step]
    split
    · unfold Sys.chunk
      split
      · exact List.mem_append_left _ hm
      · exact hm
    · exact hm
  | check =>
    simp only [Sys.step]
    split
    · unfold Sys.check; split <;> exact hm
    · exact hm
  | giveUp => simp only [Sys.step]; split <;> exact hm
  | deliver i =>
    simp only [Sys.step]
    split
    · rw [(receive_rest s _).2.2.1]; exact hm
    · exact hm
  | ack i =>
    simp only [Sys.step]
    split
    · split <;> exact hm
    · exact hm
  | reply => simp only [Sys.step]; split <;> exact hm
  | expire => exact hm

theorem net_run (build : Build) (as : List Act) : ∀ (s : Sys f), ∀ m ∈ s.net, m ∈ (s.run build as).net := by
  induction as with
  | nil => intro s m hm; exact hm
  | cons a as ih => intro s m hm; exact ih _ m (net_step build s a m hm)

/-- Symbols of the first part alone do not complete a longer transfer. -/
theorem first_part_only (hf : f.Lawful) {data : Bytes} (build : Build) (h32 : data.length < 2 ^ 32)
    (hbig : sliceLen < data.length) (as : List Act) : ∀ {s : Sys f} {b : Nat}, SInv data s b → s.recv.left = false →
      (∀ a ∈ as, a ≠ .expire) → (∀ m ∈ (s.run build as).net, m.part = 0) → (s.run build as).recv.left = false := by
  induction as with
  | nil => intro s b _ h _ _; exact h
  | cons a as ih =>
    intro s b hi hl ha hn
    obtain ⟨b', hi'⟩ := step_inv hf build h32 hi a (ha a List.mem_cons_self)
    refine ih hi' ?_ (fun x hx => ha x (List.mem_cons_of_mem _ hx)) hn
    cases a with
    | begin =>
      simp only [Sys.step]
      split
      · unfold Sys.begin; split <;> exact hl
      · exact hl
    | bind => simp only [Sys.step]; split <;> exact hl
    | chunk =>
      simp only [Sys.step]
      split
      · unfold Sys.chunk; split <;> exact hl
      · exact hl
    | check =>
      simp only [Sys.step]
      split
      · unfold Sys.check; split <;> exact hl
      · exact hl
    | giveUp => simp only [Sys.step]; split <;> exact hl
    | deliver i =>
      simp only [Sys.step]
      cases hm : s.net[i]? with
      | none => exact hl
      | some m =>
        simp only
        have hmem := List.mem_of_getElem? hm
        have h0 := hn m (net_run build as _ m (net_step build s (.deliver i) m hmem))
        rw [receive_recv s hi.alive]
        obtain ⟨p, n, e, -, -⟩ := hi.net m hmem
        have hp0 : p = 0 := by rw [e] at h0; exact h0
        subst e hp0
        obtain ⟨ns, hh⟩ := hi.honest
        cases step_honest hf hh 0 n with
        | same _ _ el _ _ => exact el.trans hl
        | more _ _ el _ _ _ => exact el
        | next _ _ el _ _ _ => exact el
        | last _ _ _ _ _ _ hlast => omega
    | ack i =>
      simp only [Sys.step]
      split
      · split <;> exact hl
      · exact hl
    | reply => simp only [Sys.step]; split <;> exact hl
    | expire => exact hl

/-- In a debug build a transfer of more than one part is lost with the first confirmation of a number above 0
while the first part is sent: no continuation finishes it. -/
theorem C106_debug_stuck (f : Fec) (hf : f.Lawful) (data : Bytes) (h32 : data.length < 2 ^ 32)
    (hbig : sliceLen < data.length) (max : Nat) (hm : data.length ≤ max) (as : List Act)
    (ha : ∀ a ∈ as, a ≠ .expire) (hs : ((Sys.init f data max).run .debug as).phase = .sending 0)
    (hin : 0 < ((Sys.init f data max).run .debug as).out.st.seqnoIn) : ¬ CanFinish f data max .debug as := by
  have hd : data ≠ [] := by intro e; rw [e] at hbig; exact absurd hbig (by simp)
  obtain ⟨b, h⟩ := run_inv hf .debug h32 as (sinv_init f hd hm) ha
  obtain ⟨hc, hb, -, -⟩ := h.atSending 0 hs
  have hnet : ∀ m ∈ ((Sys.init f data max).run .debug as).net, m.part = 0 := by
    intro m hm
    obtain ⟨p, n, e, -, hp⟩ := h.net m hm
    subst e
    show p = 0
    omega
  have hst : Stuck data ((Sys.init f data max).run .debug as) :=
    ⟨⟨b, h⟩, hin, hnet, first_part_only hf .debug h32 hbig as (sinv_init f hd hm) rfl ha hnet,
      .inr fun e _ h1 => by omega⟩
  rintro ⟨bs, c, -, hl, -⟩
  rw [run_append] at hl
  have := (stuck_run hf h32 hbig bs hst (fun a ha => (c a ha).1)).left
  rw [this] at hl
  cases hl

/-- Two symbols are sent; the second one arrives ten times, and its confirmation arrives. -/
def lostSchedule : List Act :=
  [.begin, .bind, .chunk, .chunk] ++ List.replicate 10 (.deliver 1) ++ [.ack 0]

theorem toy_waits (P : FecType) (l : List Nat) (b : Bytes) (hc : 0 < P.packetCount) (h0 : 0 ∉ l) :
    Fec.toyDecode (P, l) 1 b = ((P, 1 :: l), none) := by
  unfold Fec.toyDecode
  refine if_neg fun h => ?_
  have := List.all_eq_true.mp h 0 (List.mem_range.mpr hc)
  simp [h0] at this

/-- After `k` deliveries of the symbol `m` with number 1. -/
structure Waiting (m : Part) (k : Nat) (s : Sys Fec.toy) : Prop where
  phase : s.phase = .sending 0
  seqnoIn : s.out.st = ⟨0, false, 2, 0⟩
  alive : s.expired = false
  net : s.net[1]? = some m
  back : s.back = []
  left : s.recv.left = false
  max : s.recv.transfer.maxSize = 3000000
  count : s.recv.transfer.confirmCount = k
  data : s.recv.transfer.data = []
  part : s.recv.transfer.part = 0
  total : s.recv.transfer.totalSize = none ∧ s.recv.transfer.decoder = none ∨
    s.recv.transfer.totalSize = some m.totalSize ∧ ∃ l, 0 ∉ l ∧ s.recv.transfer.decoder = some (m.fec, (m.fec, l))

theorem waiting_process {m : Part} (hp : m.part = 0) (hq : m.seqno = 1) (ht : m.totalSize = 2000001)
    (hc : 0 < m.fec.packetCount) {t : Incoming Fec.toy} (hm : t.maxSize = 3000000) (hpart : t.part = 0)
    (h : t.totalSize = none ∧ t.decoder = none ∨
      t.totalSize = some m.totalSize ∧ ∃ l, 0 ∉ l ∧ t.decoder = some (m.fec, (m.fec, l))) :
    ∃ l, 0 ∉ l ∧ t.processChunk m =
      if t.confirmCount = 9 then
        ({ t with totalSize := some m.totalSize, decoder := some (m.fec, (m.fec, l)), confirmCount := 0 }, .confirm 0 1)
      else ({ t with totalSize := some m.totalSize, decoder := some (m.fec, (m.fec, l)),
                     confirmCount := t.confirmCount + 1 }, .nothing) := by
  obtain ⟨mx, k, d, dec, p, tot⟩ := t
  simp only at hm hpart h ⊢
  subst hm hpart
  rcases h with ⟨rfl, rfl⟩ | ⟨rfl, l, hl, rfl⟩
  · refine ⟨[1], by decide, ?_⟩
    have hg : ¬ m.totalSize > 3000000 := by omega
    have hw : Fec.toy.decode (Fec.toy.new m.fec) 1 m.data = ((m.fec, [1]), none) :=
      toy_waits m.fec [] m.data hc (by simp)
    simp only [Incoming.processChunk, if_neg hg, Incoming.partStep, hp, Nat.lt_irrefl, if_false, Incoming.decodePart,
      hq, hw]
  · refine ⟨1 :: l, by simp [hl], ?_⟩
    have hw : Fec.toy.decode (m.fec, l) 1 m.data = ((m.fec, 1 :: l), none) := toy_waits m.fec l m.data hc hl
    simp only [Incoming.processChunk, ne_eq, not_true, Incoming.partStep, hp, Nat.lt_irrefl, if_false,
      Incoming.decodePart, hq, hw]

theorem waiting_step {m : Part} (hp : m.part = 0) (hq : m.seqno = 1) (ht : m.totalSize = 2000001)
    (hc : 0 < m.fec.packetCount) {k : Nat} (hk : k < 9) {s : Sys Fec.toy} (h : Waiting m k s) :
    Waiting m (k + 1) (s.step .debug (.deliver 1)) := by
  obtain ⟨l, hl, e⟩ := waiting_process hp hq ht hc h.max h.part h.total
  rw [h.count, if_neg (by omega)] at e
  have e' : s.step .debug (.deliver 1) = s.receive m := by simp only [Sys.step, h.net]
  rw [e']
  have e2 : s.receive m = { s with recv := (s.recv.step m).1, back := s.back ++ Reply.acks (s.recv.step m).2 } := by
    unfold Sys.receive
    rw [h.alive, h.left]
    rfl
  rw [e2]
  simp only [Receiving.step, h.left, e]
  refine ⟨h.phase, h.seqnoIn, h.alive, h.net, ?_, ?_, h.max, rfl, h.data, h.part, .inr ⟨rfl, l, hl, rfl⟩⟩
  · show s.back ++ [] = []
    rw [h.back]; rfl
  · show decide (m.totalSize ≤ s.recv.transfer.data.length) = false
    rw [h.data, ht]
    decide

theorem waiting_last {m : Part} (hp : m.part = 0) (hq : m.seqno = 1) (ht : m.totalSize = 2000001)
    (hc : 0 < m.fec.packetCount) {s : Sys Fec.toy} (h : Waiting m 9 s) :
    (s.step .debug (.deliver 1)).phase = .sending 0 ∧ (s.step .debug (.deliver 1)).out.st = ⟨0, false, 2, 0⟩ ∧
    (s.step .debug (.deliver 1)).back = [.confirm 0 1] := by
  obtain ⟨l, hl, e⟩ := waiting_process hp hq ht hc h.max h.part h.total
  rw [h.count, if_pos rfl] at e
  have e' : s.step .debug (.deliver 1) = s.receive m := by simp only [Sys.step, h.net]
  rw [e']
  have e2 : s.receive m = { s with recv := (s.recv.step m).1, back := s.back ++ Reply.acks (s.recv.step m).2 } := by
    unfold Sys.receive
    rw [h.alive, h.left]
    rfl
  rw [e2]
  simp only [Receiving.step, h.left, e]
  refine ⟨h.phase, h.seqnoIn, ?_⟩
  show s.back ++ [.confirm 0 1] = _
  rw [h.back]; rfl

theorem waiting_many {m : Part} (hp : m.part = 0) (hq : m.seqno = 1) (ht : m.totalSize = 2000001)
    (hc : 0 < m.fec.packetCount) {s : Sys Fec.toy} : ∀ k, k ≤ 9 → Waiting m 0 s →
    Waiting m k (s.run .debug (List.replicate k (.deliver 1))) := by
  intro k
  induction k with
  | zero => intro _ h; exact h
  | succ k ih =>
    intro hk h
    rw [List.replicate_succ', run_append]
    exact waiting_step hp hq ht hc (by omega) (ih (by omega) h)

theorem lost_ack (s : Sys Fec.toy) (a1 : (s.step .debug (.deliver 1)).phase = .sending 0)
    (a2 : (s.step .debug (.deliver 1)).out.st = ⟨0, false, 2, 0⟩)
    (a3 : (s.step .debug (.deliver 1)).back = [.confirm 0 1]) :
    ((s.run .debug [.deliver 1]).run .debug [.ack 0]).phase = .sending 0 ∧
    ((s.run .debug [.deliver 1]).run .debug [.ack 0]).out.st.seqnoIn = 1 := by
  show ((s.step .debug (.deliver 1)).step .debug (.ack 0)).phase = .sending 0 ∧
    ((s.step .debug (.deliver 1)).step .debug (.ack 0)).out.st.seqnoIn = 1
  generalize s.step .debug (.deliver 1) = s at a1 a2 a3 ⊢
  simp only [Sys.step, a3, a1, Phase.running, if_true, List.getElem?_cons_zero, a2]
  exact ⟨trivial, rfl⟩

theorem lost_run (data : Bytes) (hl : data.length = 2000001) :
    ((Sys.init Fec.toy data 3000000).run .debug lostSchedule).phase = .sending 0 ∧
    ((Sys.init Fec.toy data 3000000).run .debug lostSchedule).out.st.seqnoIn = 1 := by
  have c0 : Fec.toy.count (partData data 0) = 2605 := by
    show ((partData data 0).length + 767) / 768 = 2605
    rw [partData_length, hl]
    decide
  have hne : data ≠ [] := by intro e; rw [e] at hl; exact absurd hl (by decide)
  have hgt : ¬ data.length ≤ sliceLen := by rw [hl]; decide
  obtain ⟨m, hp, hq, ht, hc, h0⟩ : ∃ m : Part, m.part = 0 ∧ m.seqno = 1 ∧ m.totalSize = 2000001 ∧
      0 < m.fec.packetCount ∧ Waiting m 0 ((Sys.init Fec.toy data 3000000).run .debug [.begin, .bind, .chunk, .chunk]) := by
    refine ⟨⟨Fec.toy.params (partData data 0), 0, data.length, 1, Fec.toy.symbol (partData data 0) 1⟩, rfl, rfl, hl,
      by simp [Fec.params, c0], ?_⟩
    clear hl
    have e : (Sys.init Fec.toy data 3000000).run .debug [.begin, .bind, .chunk, .chunk] =
        ⟨⟨data, 0, some ⟨partData data 0, 2⟩, ⟨0, false, 2, 0⟩⟩, .sending 0, Receiving.new Fec.toy 3000000, false,
          [⟨Fec.toy.params (partData data 0), 0, data.length, 0, Fec.toy.symbol (partData data 0) 0⟩,
           ⟨Fec.toy.params (partData data 0), 0, data.length, 1, Fec.toy.symbol (partData data 0) 1⟩], [], [0]⟩ := by
      simp [Sys.run, Sys.init, Sys.step, Sys.begin, Sys.chunk, Outgoing.new, Outgoing.startNextPart,
        Outgoing.isFinished, Outgoing.prepareChunk, Enc.encode, hne, hgt, c0, subU32, addU32, window,
        OutState.setSeqnoOut]
    rw [e]
    exact ⟨rfl, rfl, rfl, rfl, rfl, rfl, rfl, rfl, rfl, rfl, .inl ⟨rfl, rfl⟩⟩
  have h9 := waiting_many hp hq ht hc 9 (Nat.le_refl 9) h0
  obtain ⟨a1, a2, a3⟩ := waiting_last hp hq ht hc h9
  have e : lostSchedule = [.begin, .bind, .chunk, .chunk] ++ List.replicate 9 (.deliver 1) ++ [.deliver 1] ++ [.ack 0] :=
    rfl
  rw [e, run_append, run_append, run_append]
  exact lost_ack _ a1 a2 a3

theorem C106_full_false : ¬ C106_full := by
  intro h
  obtain ⟨data, hl⟩ : ∃ data : Bytes, data.length = 2000001 := ⟨List.replicate 2000001 0, List.length_replicate⟩
  obtain ⟨h1, h2⟩ := lost_run data hl
  refine C106_debug_stuck Fec.toy Fec.toy_lawful data (by omega) (by rw [hl]; decide) 3000000 (by omega) lostSchedule
    (by decide) h1 (by omega) ?_
  exact h Fec.toy Fec.toy_lawful data (by intro e; rw [e] at hl; exact absurd hl (by decide)) (by omega) 3000000
    (by omega) .debug lostSchedule (by decide) (by rw [h1]; rfl)

/-- A transfer that can be finished although everything sent so far and the confirmations are delayed. -/
example : ((Sys.init Fec.toy (List.replicate 1000 7) 2000).run .release
    [.begin, .bind, .chunk, .chunk, .deliver 1, .deliver 0, .deliver 0, .chunk]).phase.running = true := by decide +kernel

/-! ### Failures -/

theorem step_not_failed {data : Bytes} (h32 : data.length < 2 ^ 32) {s : Sys f} {b : Nat}
    (h : SInv data s b) (hp : s.phase ≠ .failed) (a : Act) (ha : a ≠ .giveUp) : (s.step .release a).phase ≠ .failed := by
  cases a with
  | begin =>
    simp only [Sys.step]
    split
    · unfold Sys.begin; split <;> simp
    · exact hp
  | bind => simp only [Sys.step]; split <;> simp_all
  | chunk =>
    simp only [Sys.step]
    split
    · rename_i p hph
      obtain ⟨e, he⟩ := Option.isSome_iff_exists.mp (h.atSending p hph).2.2.2
      obtain ⟨st, hst, -, -⟩ := prepareChunk_release (f := f) s.out he
      unfold Sys.chunk
      rw [hst]
      exact hp
    · exact hp
  | check =>
    simp only [Sys.step]
    split
    · rename_i p hph
      obtain ⟨hc, hb, hle, hsome⟩ := h.atSending p hph
      obtain ⟨e, he⟩ := Option.isSome_iff_exists.mp hsome
      have hin := (h.enc e he).2
      rw [hc] at hin
      have hpart := h.part
      have hp32 : p + 1 < 2 ^ 32 := by
        have : p * 2 ≤ p * sliceLen := Nat.mul_le_mul_left _ (by decide)
        rcases Nat.eq_zero_or_pos p with e | e
        · subst e; decide
        · omega
      have e1 : addU32 .release p 1 = some (p + 1) := if_pos hp32
      have key : s.out.finishedOrNext .release p = .yes ∨ s.out.finishedOrNext .release p = .no := by
        unfold Outgoing.finishedOrNext
        split
        · exact .inl rfl
        · split
          · exact .inr rfl
          · rw [e1]
            simp only
            rw [if_pos (by omega)]
            exact .inl rfl
      unfold Sys.check
      rcases key with k | k <;> rw [k]
      · simp
      · exact hp
    · exact hp
  | giveUp => exact absurd rfl ha
  | deliver i =>
    simp only [Sys.step]
    split
    · rw [(receive_rest s _).2.1]; exact hp
    · exact hp
  | ack i =>
    simp only [Sys.step]
    split
    · split <;> exact hp
    · exact hp
  | reply => simp only [Sys.step]; split <;> exact hp
  | expire => exact hp

theorem run_not_failed (hf : f.Lawful) {data : Bytes} (h32 : data.length < 2 ^ 32) (as : List Act) :
    ∀ {s : Sys f} {b : Nat}, SInv data s b → s.phase ≠ .failed → (∀ a ∈ as, a ≠ .expire ∧ a ≠ .giveUp) →
      (s.run .release as).phase ≠ .failed := by
  induction as with
  | nil => intro s b _ h _; exact h
  | cons a as ih =>
    intro s b hi hp ha
    obtain ⟨b', hi'⟩ := step_inv hf .release h32 hi a (ha a List.mem_cons_self).1
    exact ih hi' (step_not_failed h32 hi hp a (ha a List.mem_cons_self).2) (fun x hx => ha x (List.mem_cons_of_mem _ hx))

/-- In a release build the sender fails by its own timeout only. -/
theorem C106_fails_by_timeout_only (f : Fec) (hf : f.Lawful) (data : Bytes) (hd : data ≠ [])
    (h32 : data.length < 2 ^ 32) (max : Nat) (hm : data.length ≤ max) (as : List Act)
    (ha : ∀ a ∈ as, a ≠ .expire ∧ a ≠ .giveUp) : ((Sys.init f data max).run .release as).phase ≠ .failed :=
  run_not_failed hf h32 as (sinv_init f hd hm) (by simp [Sys.init]) ha

-- C106_release_partial, C106_fails_by_timeout_only
example := C106_release_partial Fec.toy Fec.toy_lawful (List.replicate 1000 7) (by decide +kernel) (by decide +kernel) 2000 (by decide +kernel)
  [.begin, .bind, .chunk, .chunk, .deliver 1, .deliver 0, .deliver 0, .chunk] (by decide) (by decide +kernel)
example := C106_fails_by_timeout_only Fec.toy Fec.toy_lawful (List.replicate 1000 7) (by decide +kernel) (by decide +kernel) 2000 (by decide +kernel)
  [.begin, .bind, .chunk, .chunk, .deliver 1, .deliver 0, .deliver 0, .chunk] (by decide)

end Verif.Rldp
