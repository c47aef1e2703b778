import Verif.Model.RldpSystem
import Verif.Proofs.RldpTransfer

/-!
# Invariant of an RLDP transfer
-/
namespace Verif.Rldp

/-- `b` is the number of parts for which message parts may be under way. -/
structure SInv {f : Fec} (data : Bytes) (s : Sys f) (b : Nat) : Prop where
  dataEq : s.out.data = data
  alive : s.expired = false
  honest : ∃ ns, Honest data s.recv ns
  net : ∀ m ∈ s.net, ∃ p n, m = honestPart f data p n ∧ p * sliceLen < data.length ∧ p < b
  back : ∀ q, .complete q ∈ s.back → q < b ∧ q * sliceLen < data.length ∧ s.recv.Decoded q
  part : s.out.st.part ≤ b
  dec : ∀ q, q < s.out.st.part → s.recv.Decoded q
  reply : s.out.st.hasReply = true → s.recv.left = true
  recvPart : s.recv.transfer.part ≤ b
  enc : ∀ e, s.out.enc = some e → e.data = partData data s.out.cur ∧ s.out.cur * sliceLen < data.length
  atStart : s.phase = .start → s.out.st.part = b ∨ s.out.isFinished = true
  atBegun : s.phase = .begun → s.out.st.part = b ∧ s.out.cur = b ∧ s.started = List.range (b + 1) ∧
    s.out.enc.isSome = true
  atSending : ∀ p, s.phase = .sending p → s.out.cur = p ∧ b = p + 1 ∧ p ≤ s.out.st.part ∧
    s.out.enc.isSome = true
  started : s.phase ≠ .begun → s.started = List.range b
  atOk : s.phase = .ok → s.recv.left = true

theorem sinv_init (f : Fec) {data : Bytes} (hd : data ≠ []) {max : Nat} (hm : data.length ≤ max) :
    SInv data (Sys.init f data max) 0 where
  dataEq := rfl
  alive := rfl
  honest := ⟨[], honest_new f hd hm⟩
  net := fun _ h => absurd h List.not_mem_nil
  back := fun _ h => absurd h List.not_mem_nil
  part := Nat.le_refl _
  dec := fun _ h => absurd h (Nat.not_lt_zero _)
  reply := fun h => by cases h
  recvPart := Nat.le_refl _
  enc := fun _ h => by cases h
  atStart := fun _ => .inl rfl
  atBegun := fun h => by cases h
  atSending := fun _ h => by cases h
  started := fun _ => rfl
  atOk := fun h => by cases h

/-- All parts decoded means everything received. -/
theorem left_of_decoded {f : Fec} {data : Bytes} {r : Receiving f} {ns : List Nat}
    (h : Honest data r ns) {k : Nat} (hd : ∀ q, q < k → r.Decoded q)
    (hk : data.length ≤ k * sliceLen) : r.left = true := by
  cases hl : r.left with
  | true => rfl
  | false =>
    have hin := h.inside hl
    have hk0 : 0 < k := by
      rcases Nat.eq_zero_or_pos k with e | e
      · subst e; omega
      · exact e
    rcases hd (k - 1) (by omega) with h1 | h1
    · have : k * sliceLen ≤ r.transfer.part * sliceLen := Nat.mul_le_mul_right _ (by omega)
      omega
    · exact absurd (hl.symm.trans h1) (by decide)

theorem isFinished_left {f : Fec} {data : Bytes} {s : Sys f} {b : Nat} (h : SInv data s b)
    (hf : s.out.isFinished = true) : s.recv.left = true := by
  unfold Outgoing.isFinished at hf
  rw [Bool.and_eq_true] at hf
  exact h.reply hf.1

theorem begin_inv {f : Fec} (hf : f.Lawful) {data : Bytes} {s : Sys f} {b : Nat} (h : SInv data s b)
    (hp : s.phase = .start) : SInv data s.begin b := by
  obtain ⟨ns, hh⟩ := h.honest
  have toOk : ∀ (hl : s.recv.left = true), SInv data { s with phase := .ok } b := fun hl =>
    ⟨h.dataEq, h.alive, h.honest, h.net, h.back, h.part, h.dec, h.reply, h.recvPart, h.enc,
      fun h => (by cases h), fun h => (by cases h), fun _ h => (by cases h),
      fun _ => h.started (by rw [hp]; decide), fun _ => hl⟩
  unfold Sys.begin
  cases hfin : s.out.isFinished with
  | true =>
    have e : s.out.startNextPart f = (s.out, none) := by simp [Outgoing.startNextPart, hfin]
    rw [e]
    exact toOk (isFinished_left h hfin)
  | false =>
    by_cases hle : s.out.data.length ≤ s.out.st.part * sliceLen
    · have e : s.out.startNextPart f = (s.out, none) := by simp [Outgoing.startNextPart, hfin, hle]
      rw [e]
      exact toOk (left_of_decoded hh h.dec (h.dataEq ▸ hle))
    · have hlt : s.out.st.part * sliceLen < data.length := by rw [← h.dataEq]; omega
      have hc := hf.count_pos _ (partData_ne_nil hlt)
      have e : s.out.startNextPart f =
          ({ s.out with cur := s.out.st.part, enc := some ⟨partData s.out.data s.out.st.part, 0⟩ },
            some (f.count (partData s.out.data s.out.st.part))) := by
        simp [Outgoing.startNextPart, hfin, h.dataEq, hc, hlt]
      rw [e]
      have hb : s.out.st.part = b := by
        rcases h.atStart hp with e | e
        · exact e
        · rw [hfin] at e; cases e
      refine ⟨h.dataEq, h.alive, h.honest, h.net, h.back, h.part, h.dec, h.reply, h.recvPart, ?_,
        fun h => (by cases h), fun _ => ⟨hb, hb, ?_, rfl⟩, fun _ h => (by cases h),
        fun h => absurd rfl h, fun h => (by cases h)⟩
      · intro e he
        cases he
        exact ⟨by rw [h.dataEq], hlt⟩
      · show s.started ++ [s.out.st.part] = _
        rw [h.started (by rw [hp]; decide), hb, List.range_succ]

/-- What `prepare_chunk` can do. -/
theorem prepareChunk_spec (f : Fec) (build : Build) (t : Outgoing) {e : Enc} (he : t.enc = some e) :
    (t.prepareChunk f build).1.data = t.data ∧ (t.prepareChunk f build).1.cur = t.cur ∧
    (t.prepareChunk f build).1.st.part = t.st.part ∧
    (t.prepareChunk f build).1.st.hasReply = t.st.hasReply ∧
    (∃ e', (t.prepareChunk f build).1.enc = some e' ∧ e'.data = e.data) ∧
    (∀ m, (t.prepareChunk f build).2 = .part m →
      ∃ n, m = ⟨f.params e.data, t.cur, t.data.length, n, f.symbol e.data n⟩) := by
  have hed : (e.encode f t.st.seqnoOut).2.data = e.data := by
    unfold Enc.encode; split <;> rfl
  unfold Outgoing.prepareChunk
  rw [he]
  simp only
  split
  · exact ⟨rfl, rfl, rfl, rfl, ⟨_, rfl, hed⟩, fun m hm => by cases hm⟩
  · split
    · split
      · split
        · exact ⟨rfl, rfl, rfl, rfl, ⟨_, rfl, hed⟩, fun m hm => by cases hm⟩
        · exact ⟨rfl, rfl, rfl, rfl, ⟨_, rfl, hed⟩, fun m hm => by cases hm; exact ⟨_, rfl⟩⟩
      · exact ⟨rfl, rfl, rfl, rfl, ⟨_, rfl, hed⟩, fun m hm => by cases hm; exact ⟨_, rfl⟩⟩
    · exact ⟨rfl, rfl, rfl, rfl, ⟨_, rfl, hed⟩, fun m hm => by cases hm; exact ⟨_, rfl⟩⟩

theorem chunk_inv {f : Fec} {data : Bytes} {s : Sys f} {b p : Nat} (build : Build) (h : SInv data s b)
    (hp : s.phase = .sending p) : SInv data (s.chunk build) b := by
  obtain ⟨hcur, hb, hpp, hsome⟩ := h.atSending p hp
  obtain ⟨e, he⟩ := Option.isSome_iff_exists.mp hsome
  obtain ⟨hed, hin⟩ := h.enc e he
  obtain ⟨h1, h2, h3, h4, ⟨e', h5, h5'⟩, h6⟩ := prepareChunk_spec f build s.out he
  have hst := h.started (by rw [hp]; simp)
  unfold Sys.chunk
  generalize hpc : s.out.prepareChunk f build = pc at h1 h2 h3 h4 h5 h6
  obtain ⟨o, c⟩ := pc
  simp only at h1 h2 h3 h4 h5 h6
  have henc : ∀ x, o.enc = some x → x.data = partData data o.cur ∧ o.cur * sliceLen < data.length := by
    intro x hx
    rw [h5] at hx
    cases hx
    exact ⟨by rw [h5', hed, h2], by rw [h2]; exact hin⟩
  have failed : SInv data { s with out := o, phase := .failed } b :=
    ⟨h1.trans h.dataEq, h.alive, h.honest, h.net, h.back, by rw [h3]; exact h.part,
      fun q hq => h.dec q (by rw [← h3]; exact hq), fun hr => h.reply (h4 ▸ hr), h.recvPart, henc,
      fun h => (by cases h), fun h => (by cases h), fun _ h => (by cases h), fun _ => hst,
      fun h => (by cases h)⟩
  cases c with
  | notReady => exact failed
  | panic => exact failed
  | part m =>
    obtain ⟨n, hm⟩ := h6 m rfl
    refine ⟨h1.trans h.dataEq, h.alive, h.honest, ?_, h.back, by rw [h3]; exact h.part,
      fun q hq => h.dec q (by rw [← h3]; exact hq), fun hr => h.reply (h4 ▸ hr), h.recvPart, henc,
      fun hx => ?_, fun hx => ?_, fun q hq => ?_, fun _ => hst, fun hx => ?_⟩
    · intro m' hm'
      rcases List.mem_append.mp hm' with hm' | hm'
      · exact h.net m' hm'
      · rw [List.mem_singleton] at hm'
        subst hm'
        refine ⟨p, n, ?_, by rw [← hcur]; exact hin, by omega⟩
        rw [hm, honestPart, hed, h.dataEq, hcur]
    · exact absurd (hp.symm.trans hx) (by simp)
    · exact absurd (hp.symm.trans hx) (by simp)
    · have hq' : s.phase = .sending q := hq
      rw [hp] at hq'
      cases hq'
      exact ⟨h2.trans hcur, hb, by show p ≤ o.st.part; rw [h3]; exact hpp, by rw [h5]; rfl⟩
    · exact absurd (hp.symm.trans hx) (by simp)

theorem check_inv {f : Fec} {data : Bytes} {s : Sys f} {b p : Nat} (build : Build) (h : SInv data s b)
    (hp : s.phase = .sending p) : SInv data (s.check build p) b := by
  obtain ⟨hcur, hb, hpp, hsome⟩ := h.atSending p hp
  have hst := h.started (by rw [hp]; simp)
  have failed : SInv data { s with phase := .failed } b :=
    ⟨h.dataEq, h.alive, h.honest, h.net, h.back, h.part, h.dec, h.reply, h.recvPart, h.enc,
      fun h => (by cases h), fun h => (by cases h), fun _ h => (by cases h), fun _ => hst,
      fun h => (by cases h)⟩
  unfold Sys.check
  cases hc : s.out.finishedOrNext build p with
  | no => exact h
  | mismatch => exact failed
  | panic => exact failed
  | yes =>
    refine ⟨h.dataEq, h.alive, h.honest, h.net, h.back, h.part, h.dec, h.reply, h.recvPart, h.enc,
      fun _ => ?_, fun h => (by cases h), fun _ h => (by cases h), fun _ => hst, fun h => (by cases h)⟩
    unfold Outgoing.finishedOrNext at hc
    by_cases hf : s.out.isFinished = true
    · exact .inr hf
    · rw [if_neg hf] at hc
      by_cases he : s.out.st.part = p
      · rw [if_pos he] at hc; cases hc
      · have := h.part
        exact .inl (by show s.out.st.part = b; omega)

theorem receive_inv {f : Fec} (hf : f.Lawful) {data : Bytes} {s : Sys f} {b : Nat}
    (h : SInv data s b) {m : Part} (hm : m ∈ s.net) : SInv data (s.receive m) b := by
  obtain ⟨ns, hh⟩ := h.honest
  obtain ⟨p, n, e, hin, hpb⟩ := h.net m hm
  subst e
  unfold Sys.receive
  cases hl : s.recv.left with
  | true =>
    rw [if_pos (by rw [Bool.or_true])]
    refine ⟨h.dataEq, h.alive, h.honest, h.net, ?_, h.part, h.dec, h.reply, h.recvPart, h.enc, h.atStart,
      h.atBegun, h.atSending, h.started, h.atOk⟩
    intro q hq
    rcases List.mem_append.mp hq with hq | hq
    · exact h.back q hq
    · rcases List.mem_cons.mp hq with hq | hq
      · cases hq
      · rw [List.mem_singleton] at hq
        cases hq
        exact ⟨hpb, hin, .inr hl⟩
  | false =>
    rw [if_neg (by rw [h.alive]; decide)]
    have he := step_honest hf hh p n
    have build : ∀ (r' : Receiving f) (rep : Option Reply) (ns' : List Nat), Honest data r' ns' →
        s.recv.transfer.part ≤ r'.transfer.part → r'.transfer.part ≤ b →
        (∀ q, rep = some (.complete q) → q < b ∧ q * sliceLen < data.length ∧ r'.Decoded q) →
        SInv data { s with recv := r', back := s.back ++ Reply.acks rep } b := by
      intro r' rep ns' hh' h1 h3 h4
      have up : ∀ q, s.recv.Decoded q → r'.Decoded q := by
        intro q hq
        rcases hq with hq | hq
        · exact .inl (by omega)
        · exact absurd (hl.symm.trans hq) (by decide)
      refine ⟨h.dataEq, h.alive, ⟨ns', hh'⟩, h.net, ?_, h.part, fun q hq => up q (h.dec q hq),
        fun hr => absurd (hl.symm.trans (h.reply hr)) (by decide), h3, h.enc, h.atStart, h.atBegun,
        h.atSending, h.started, fun ho => absurd (hl.symm.trans (h.atOk ho)) (by decide)⟩
      intro q hq
      rcases List.mem_append.mp hq with hq | hq
      · obtain ⟨a, b, c⟩ := h.back q hq
        exact ⟨a, b, up q c⟩
      · cases rep with
        | none => exact absurd hq List.not_mem_nil
        | some rp =>
          cases rp with
          | complete q' =>
            have hq' := List.mem_singleton.mp hq
            cases hq'
            exact h4 q rfl
          | confirm a c => exact absurd (List.mem_singleton.mp hq) (by simp)
          | nothing => exact absurd hq List.not_mem_nil
          | sizeMismatch => exact absurd hq List.not_mem_nil
          | paramsMismatch => exact absurd hq List.not_mem_nil
          | tooBig => exact absurd hq List.not_mem_nil
    have hrb := h.recvPart
    cases he with
    | same h1 e el hp hr =>
      refine build _ _ _ h1 (by omega) (by omega) fun q hq => ?_
      have hq' := hr q hq
      refine ⟨by omega, ?_, .inl (by omega)⟩
      have := hh.inside hl
      have : q * sliceLen ≤ s.recv.transfer.part * sliceLen := Nat.mul_le_mul_right _ (by omega)
      omega
    | more h1 e el el' hp hr =>
      exact build _ _ _ h1 (by omega) (by omega) fun q hq => absurd hq (hr q)
    | next h1 e el el' hp hr =>
      refine build _ _ _ h1 (by omega) (by omega) fun q hq => ?_
      rw [hr] at hq
      cases hq
      exact ⟨hpb, hin, .inl (by omega)⟩
    | last h1 e el el' hp hr =>
      refine build _ _ _ h1 (by omega) (by omega) fun q hq => ?_
      rw [hr] at hq
      cases hq
      exact ⟨hpb, hin, .inr el⟩

/-- Effect of a confirmation. -/
theorem ack_spec (build : Build) (s : OutState) (a : Ack) :
    (s.ack build a).hasReply = s.hasReply ∧
    ((s.ack build a).part = s.part ∨
      ∃ q, a = .complete q ∧ (q + 1 < 2 ^ 32 → s.part = q ∧ (s.ack build a).part = q + 1)) := by
  cases a with
  | confirm p n =>
    simp only [OutState.ack, OutState.confirm, OutState.setSeqnoIn]
    split
    · split
      · exact ⟨rfl, .inl rfl⟩
      · exact ⟨rfl, .inl rfl⟩
    · exact ⟨rfl, .inl rfl⟩
  | complete q =>
    simp only [OutState.ack, OutState.complete]
    by_cases hq : q + 1 < 2 ^ 32
    · have e1 : addU32 build q 1 = some (q + 1) := if_pos hq
      have e2 : subU32 build (q + 1) 1 = some q := if_pos (by omega)
      rw [e1]
      simp only [OutState.setPart, e2, Option.getD]
      by_cases hs : s.part = q
      · rw [if_pos hs]
        exact ⟨rfl, .inr ⟨q, rfl, fun _ => ⟨hs, rfl⟩⟩⟩
      · rw [if_neg hs]
        exact ⟨rfl, .inl rfl⟩
    · refine ⟨?_, .inr ⟨q, rfl, fun h => absurd h hq⟩⟩
      cases addU32 build q 1 with
      | none => rfl
      | some p =>
        simp only [OutState.setPart]
        cases subU32 build p 1 with
        | none => rfl
        | some q' => simp only [Option.getD]; split <;> rfl

theorem isFinished_mono {t t' : Outgoing} (hd : t'.data = t.data) (hr : t.st.hasReply = true → t'.st.hasReply = true)
    (hp : t.st.part ≤ t'.st.part) (h : t.isFinished = true) : t'.isFinished = true := by
  unfold Outgoing.isFinished at h ⊢
  rw [Bool.and_eq_true, decide_eq_true_eq] at h ⊢
  refine ⟨hr h.1, ?_⟩
  have := Nat.mul_le_mul_right sliceLen (Nat.add_le_add_right hp 1)
  rw [hd]
  omega

theorem ack_inv {f : Fec} {data : Bytes} {s : Sys f} {b : Nat} (build : Build) (h : SInv data s b)
    (h32 : data.length < 2 ^ 32) {a : Ack} (ha : a ∈ s.back) :
    SInv data { s with out := { s.out with st := s.out.st.ack build a } } b := by
  obtain ⟨h1, h2⟩ := ack_spec build s.out.st a
  have hup : (s.out.st.ack build a).part = s.out.st.part ∨
      ∃ q, q < b ∧ s.recv.Decoded q ∧ s.out.st.part = q ∧ (s.out.st.ack build a).part = q + 1 := by
    rcases h2 with h2 | ⟨q, e, h2⟩
    · exact .inl h2
    · subst e
      obtain ⟨i1, i2, i3⟩ := h.back q ha
      have : q * 2000000 < data.length := i2
      obtain ⟨j1, j2⟩ := h2 (by omega)
      exact .inr ⟨q, i1, i3, j1, j2⟩
  generalize s.out.st.ack build a = st' at h1 hup ⊢
  have hle : s.out.st.part ≤ st'.part := by rcases hup with e | ⟨q, _, _, e1, e2⟩ <;> omega
  have hb := h.part
  have hle' : st'.part ≤ b := by rcases hup with e | ⟨q, _, _, e1, e2⟩ <;> omega
  refine ⟨h.dataEq, h.alive, h.honest, h.net, h.back, hle', ?_, fun hr => h.reply (h1 ▸ hr), h.recvPart,
    h.enc, fun hp => ?_, fun hp => ?_, fun p hp => ?_, h.started, h.atOk⟩
  · intro q hq
    have hq' : q < st'.part := hq
    rcases hup with e | ⟨k, _, hk, e1, e2⟩
    · exact h.dec q (by omega)
    · rcases Nat.lt_or_ge q k with hqk | hqk
      · exact h.dec q (by omega)
      · have : q = k := by omega
        exact this ▸ hk
  · rcases h.atStart hp with e | e
    · exact .inl (by show st'.part = b; omega)
    · exact .inr (isFinished_mono (t := s.out) rfl (fun hr => h1.trans hr) hle e)
  · obtain ⟨e1, e2, e3, e4⟩ := h.atBegun hp
    exact ⟨by show st'.part = b; omega, e2, e3, e4⟩
  · obtain ⟨e1, e2, e3, e4⟩ := h.atSending p hp
    exact ⟨e1, e2, by show p ≤ st'.part; omega, e4⟩

/-- Steps without expiry keep the invariant; the bound does not decrease. -/
theorem step_inv {f : Fec} (hf : f.Lawful) {data : Bytes} {s : Sys f} {b : Nat} (build : Build)
    (h32 : data.length < 2 ^ 32) (h : SInv data s b) (a : Act) (ha : a ≠ .expire) :
    ∃ b', SInv data (s.step build a) b' := by
  cases a with
  | expire => exact absurd rfl ha
  | begin =>
    simp only [Sys.step]
    split
    · exact ⟨b, begin_inv hf h ‹_›⟩
    · exact ⟨b, h⟩
  | bind =>
    simp only [Sys.step]
    split
    · rename_i hp
      obtain ⟨e1, e2, e3, e4⟩ := h.atBegun hp
      refine ⟨b + 1, h.dataEq, h.alive, h.honest, fun m hm => ?_, fun q hq => ?_, Nat.le_succ_of_le h.part,
        h.dec, h.reply, Nat.le_succ_of_le h.recvPart, h.enc, fun h => (by cases h), fun h => (by cases h),
        fun p hp' => ?_, fun _ => e3, fun h => (by cases h)⟩
      · obtain ⟨p, n, x, y, z⟩ := h.net m hm
        exact ⟨p, n, x, y, by omega⟩
      · obtain ⟨x, y, z⟩ := h.back q hq
        exact ⟨by omega, y, z⟩
      · cases hp'
        exact ⟨e2.trans e1.symm, by rw [e1], Nat.le_refl _, e4⟩
    · exact ⟨b, h⟩
  | chunk =>
    simp only [Sys.step]
    split
    · exact ⟨b, chunk_inv build h ‹_›⟩
    · exact ⟨b, h⟩
  | check =>
    simp only [Sys.step]
    split
    · exact ⟨b, check_inv build h ‹_›⟩
    · exact ⟨b, h⟩
  | giveUp =>
    simp only [Sys.step]
    split
    · rename_i p hp
      exact ⟨b, h.dataEq, h.alive, h.honest, h.net, h.back, h.part, h.dec, h.reply, h.recvPart, h.enc,
        fun h => (by cases h), fun h => (by cases h), fun _ h => (by cases h),
        fun _ => h.started (by rw [hp]; simp), fun h => (by cases h)⟩
    · exact ⟨b, h⟩
  | deliver i =>
    simp only [Sys.step]
    split
    · exact ⟨b, receive_inv hf h (List.mem_of_getElem? ‹_›)⟩
    · exact ⟨b, h⟩
  | ack i =>
    simp only [Sys.step]
    split
    · split
      · exact ⟨b, ack_inv build h h32 (List.mem_of_getElem? ‹_›)⟩
      · exact ⟨b, h⟩
    · exact ⟨b, h⟩
  | reply =>
    simp only [Sys.step]
    split
    · rename_i hl
      refine ⟨b, h.dataEq, h.alive, h.honest, h.net, h.back, h.part, h.dec, fun _ => hl, h.recvPart, h.enc,
        fun hp => ?_, h.atBegun, h.atSending, h.started, h.atOk⟩
      rcases h.atStart hp with e | e
      · exact .inl e
      · exact .inr (isFinished_mono (t := s.out) rfl (fun _ => rfl) (Nat.le_refl _) e)
    · exact ⟨b, h⟩

theorem run_inv {f : Fec} (hf : f.Lawful) {data : Bytes} (build : Build) (h32 : data.length < 2 ^ 32)
    (as : List Act) : ∀ {s : Sys f} {b : Nat}, SInv data s b → (∀ a ∈ as, a ≠ .expire) →
      ∃ b', SInv data (s.run build as) b' := by
  induction as with
  | nil => intro s b h _; exact ⟨b, h⟩
  | cons a as ih =>
    intro s b h ha
    obtain ⟨b', h'⟩ := step_inv hf build h32 h a (ha a List.mem_cons_self)
    exact ih h' fun x hx => ha x (List.mem_cons_of_mem _ hx)

end Verif.Rldp
