import Verif.Model.RldpQuery
import Verif.Proofs.RldpProto
import Verif.Props.Compression
import Verif.Props.RldpReceive

/-!
# C41-C44, C60: RLDP queries and answers
-/
namespace Verif.Rldp
open Verif.Tl

/-! ### C60: wire format -/

/-- C60: every RLDP message and message part is read back as it was written, with whatever bytes follow
left over. -/
theorem C60_round_trip (rest : Bytes) :
    (∀ m : Message, m.wf → readMessage (writeMessage m ++ rest) = some (m, rest)) ∧
    (∀ m : PartMsg, m.wf → readPartMsg (writePartMsg m ++ rest) = some (m, rest)) :=
  ⟨fun m h => message_encodes m h rest, fun m h => partMsg_encodes m h rest⟩

/-- C60: different messages have different serialisations, none a prefix of another. -/
theorem C60_unambiguous (r r' : Bytes) :
    (∀ m m' : Message, m.wf → m'.wf → writeMessage m ++ r = writeMessage m' ++ r' → m = m' ∧ r = r') ∧
    (∀ m m' : PartMsg, m.wf → m'.wf → writePartMsg m ++ r = writePartMsg m' ++ r' → m = m' ∧ r = r') := by
  constructor
  · intro m m' h h' e
    have h1 := message_encodes m h r
    rw [e, message_encodes m' h' r'] at h1
    simpa [eq_comm] using h1
  · intro m m' h h' e
    have h1 := partMsg_encodes m h r
    rw [e, partMsg_encodes m' h' r'] at h1
    simpa [eq_comm] using h1

/-- C60: the in-place reader of queries accepts exactly what the general reader takes for a query, with
the same contents. -/
theorem C60_from_data (d q data : Bytes) (m : Nat) :
    fromData d = some ⟨q, m, data⟩ ↔ ∃ t r, readMessage d = some (.query q m t data, r) :=
  fromData_iff d ⟨q, m, data⟩

example : (Message.query (List.replicate 32 1) 100 7 [1, 2, 3]).wf ∧
    fromData (writeMessage (.query (List.replicate 32 1) 100 7 [1, 2, 3])) =
      some ⟨List.replicate 32 1, 100, [1, 2, 3]⟩ ∧
    fromData (writeMessage (.answer (List.replicate 32 1) [1, 2, 3])) = none :=
  ⟨⟨by decide, by decide, by decide, by decide⟩, by decide +kernel, by decide +kernel⟩

/-! ### C42: transfer ids -/

theorem xor_ff_ff (b : UInt8) : b ^^^ 0xff ^^^ 0xff = b := by
  rw [UInt8.xor_assoc, UInt8.xor_self, UInt8.xor_zero]

theorem xor_ff_ne (b : UInt8) : b ^^^ 0xff ≠ b := by
  intro h
  have h1 : b ^^^ (b ^^^ 0xff) = b ^^^ b := by rw [h]
  rw [← UInt8.xor_assoc, UInt8.xor_self, UInt8.zero_xor] at h1
  exact absurd h1 (by decide)

theorem negateId_negateId (a : Bytes) : negateId (negateId a) = a := by
  unfold negateId
  rw [List.map_map]
  conv => rhs; rw [← List.map_id a]
  exact List.map_congr_left fun b _ => xor_ff_ff b

/-- C42: the id of the answer is an id, differs from that of the query, and leads back to it. -/
theorem C42_negation (a : Bytes) (ha : a.length = 32) :
    (negateId a).length = 32 ∧ negateId (negateId a) = a ∧ negateId a ≠ a := by
  refine ⟨by simp [negateId, ha], negateId_negateId a, ?_⟩
  cases a with
  | nil => cases ha
  | cons b t =>
    intro h
    exact xor_ff_ne b (List.cons.inj h).1

example : negateId (negateId (List.replicate 32 0x0f)) = List.replicate 32 0x0f ∧
    negateId (List.replicate 32 0x0f) ≠ List.replicate 32 0x0f :=
  (C42_negation _ List.length_replicate).2

/-- C42: both ends agree: `b` is the answer's id for the query `a` iff `a` is the one for `b`. -/
theorem C42_both_ends (a b : Bytes) : negateId a = b ↔ negateId b = a := by
  constructor <;> rintro rfl <;> exact negateId_negateId _

/-- C42: two queries share an id of a transfer only if they have the same pair of ids. -/
theorem C42_disjoint (a b x : Bytes) (hx : x = a ∨ x = negateId a) (hx' : x = b ∨ x = negateId b) :
    b = a ∨ b = negateId a := by
  rcases hx with rfl | rfl <;> rcases hx' with h | h
  · exact .inl h.symm
  · exact .inr ((C42_both_ends b x).1 h.symm).symm
  · exact .inr h.symm
  · have := congrArg negateId h
    rw [negateId_negateId, negateId_negateId] at this
    exact .inl this.symm

example : negateId (List.replicate 32 0x0f) = List.replicate 32 0xf0 := by decide

/-! ### C43: timeouts -/

/-- Roundtrip and timeout after the observations `es`, starting from the caller's `r`
(transfers_cache.rs:470-471, 506, 515). -/
def afterObservations (o : QueryOptions) (r : Option Nat) (es : List Nat) : Nat × Nat :=
  es.foldl (fun s e => o.updateRoundtrip s.1 e) (r.getD 0, o.computeTimeout r)

/-- C43 as stated, for the values. -/
def C43_full : Prop := ∀ (o : QueryOptions) (r : Option Nat) (es : List Nat), o.min ≤ o.max → es ≠ [] →
  (o.min ≤ (afterObservations o r es).2 ∧ (afterObservations o r es).2 ≤ o.max) ∧
  (o.min ≤ (afterObservations o r es).1 ∧ (afterObservations o r es).1 ≤ o.max)

/-- The estimate of the roundtrip is not clamped: after one answer within 3 ms it is 3, below the minimum
of 500. -/
theorem C43_full_false : ¬ C43_full := by
  intro h
  have := (h ⟨500, 10000⟩ none [3] (by decide) (by decide)).2.1
  exact absurd this (by decide)

theorem computeTimeout_bounds (o : QueryOptions) (h : o.min ≤ o.max) (r : Option Nat) :
    o.min ≤ o.computeTimeout r ∧ o.computeTimeout r ≤ o.max := by
  unfold QueryOptions.computeTimeout
  cases r with
  | none => exact ⟨h, Nat.le_refl _⟩
  | some r =>
    simp only
    split
    · exact ⟨h, Nat.le_refl _⟩
    · exact ⟨Nat.le_max_right _ _, Nat.max_le.2 ⟨by omega, h⟩⟩

theorem foldl_timeout (o : QueryOptions) (h : o.min ≤ o.max) (es : List Nat) : ∀ s : Nat × Nat,
    o.min ≤ s.2 ∧ s.2 ≤ o.max →
    o.min ≤ (es.foldl (fun s e => o.updateRoundtrip s.1 e) s).2 ∧
      (es.foldl (fun s e => o.updateRoundtrip s.1 e) s).2 ≤ o.max := by
  induction es with
  | nil => intro s hs; exact hs
  | cons e es ih =>
    intro s _
    refine ih _ ?_
    simp only [QueryOptions.updateRoundtrip]
    exact computeTimeout_bounds o h _

/-- C43: every timeout lies between the limits, whatever was observed. -/
theorem C43_timeouts_partial (o : QueryOptions) (h : o.min ≤ o.max) (r : Option Nat) (es : List Nat) :
    o.min ≤ (afterObservations o r es).2 ∧ (afterObservations o r es).2 ≤ o.max :=
  foldl_timeout o h es _ (computeTimeout_bounds o h r)

example : 500 ≤ (afterObservations ⟨500, 10000⟩ (some 3) [1, 100000, 20]).2 ∧
    (afterObservations ⟨500, 10000⟩ (some 3) [1, 100000, 20]).2 ≤ 10000 :=
  C43_timeouts_partial ⟨500, 10000⟩ (by decide) (some 3) [1, 100000, 20]

theorem foldl_le (o : QueryOptions) (M : Nat) (es : List Nat) (hes : ∀ e ∈ es, e ≤ M) : ∀ s : Nat × Nat,
    s.1 ≤ M → (es.foldl (fun s e => o.updateRoundtrip s.1 e) s).1 ≤ M := by
  induction es with
  | nil => intro s hs; exact hs
  | cons e es ih =>
    intro s hs
    refine ih (fun x hx => hes x (List.mem_cons_of_mem _ hx)) _ ?_
    have he := hes e List.mem_cons_self
    simp only [QueryOptions.updateRoundtrip]
    split <;> omega

theorem foldl_ge (o : QueryOptions) (m : Nat) (es : List Nat) (hes : ∀ e ∈ es, m ≤ e) : ∀ s : Nat × Nat,
    m ≤ s.1 → m ≤ (es.foldl (fun s e => o.updateRoundtrip s.1 e) s).1 := by
  induction es with
  | nil => intro s hs; exact hs
  | cons e es ih =>
    intro s hs
    refine ih (fun x hx => hes x (List.mem_cons_of_mem _ hx)) _ ?_
    have he := hes e List.mem_cons_self
    simp only [QueryOptions.updateRoundtrip]
    split <;> omega

/-- C43: the estimate stays within the bounds of what was observed and of what the caller gave; so it is
within the limits if the observations are. -/
theorem C43_estimate_partial (o : QueryOptions) (m M : Nat) (r : Option Nat) (es : List Nat)
    (hr : ∀ x, r = some x → x = 0 ∨ (m ≤ x ∧ x ≤ M)) (hes : ∀ e ∈ es, m ≤ e ∧ e ≤ M) (hne : es ≠ []) :
    m ≤ (afterObservations o r es).1 ∧ (afterObservations o r es).1 ≤ M := by
  cases es with
  | nil => exact absurd rfl hne
  | cons e es =>
    have he := hes e List.mem_cons_self
    have htl : ∀ x ∈ es, m ≤ x ∧ x ≤ M := fun x hx => hes x (List.mem_cons_of_mem _ hx)
    have h0 : r.getD 0 = 0 ∨ (m ≤ r.getD 0 ∧ r.getD 0 ≤ M) := by
      cases r with
      | none => exact .inl rfl
      | some x => exact hr x rfl
    unfold afterObservations
    rw [List.foldl_cons]
    constructor
    · refine foldl_ge o m es (fun x hx => (htl x hx).1) _ ?_
      simp only [QueryOptions.updateRoundtrip]
      split <;> omega
    · refine foldl_le o M es (fun x hx => (htl x hx).2) _ ?_
      simp only [QueryOptions.updateRoundtrip]
      split <;> omega

example : 30 ≤ (afterObservations ⟨500, 10000⟩ (some 60) [40, 30, 90]).1 ∧
    (afterObservations ⟨500, 10000⟩ (some 60) [40, 30, 90]).1 ≤ 90 :=
  C43_estimate_partial ⟨500, 10000⟩ 30 90 (some 60) [40, 30, 90] (by intro x hx; cases hx; decide) (by decide) (by decide)

/-- C43: the roundtrip reported for a failed query is at most the maximum. -/
theorem C43_big_roundtrip_partial (o : QueryOptions) (r : Nat) : o.bigRoundtrip r ≤ o.max :=
  Nat.min_le_right _ _

/-- The checks happen in order, at most `gap` apart, and the counter never goes above `S`. -/
def Checks (gap S : Nat) : Nat → List (Nat × Nat) → Prop
  | _, [] => True
  | last, (now, c) :: rest => last ≤ now ∧ now ≤ last + gap ∧ c ≤ S ∧ Checks gap S now rest

/-- Time of the last check. -/
def lastTime (t0 : Nat) (cs : List (Nat × Nat)) : Nat := (cs.getLast?.map Prod.fst).getD t0

theorem lastTime_cons (t0 : Nat) (c : Nat × Nat) (cs : List (Nat × Nat)) :
    lastTime t0 (c :: cs) = lastTime c.1 cs := by
  cases cs with
  | nil => rfl
  | cons d ds => simp [lastTime, List.getLast?_cons]

theorem wait_aux (o : QueryOptions) (h : o.min ≤ o.max) (gap S t0 : Nat) (cs : List (Nat × Nat)) :
    ∀ (w : Wait) (last : Nat), w.timeout ≤ o.max → w.counter ≤ S → w.start ≤ last → t0 ≤ w.start →
      last ≤ w.start + (o.max + o.max * S / 100) →
      w.start ≤ t0 + w.counter * (o.max + o.max * S / 100 + gap) →
      Checks gap S last cs → (w.run o cs).isSome →
      lastTime last cs ≤ t0 + (S + 1) * (o.max + o.max * S / 100 + gap) := by
  induction cs with
  | nil =>
    intro w last _ hc _ _ hl hs _ _
    have h1 := Nat.mul_le_mul_right (o.max + o.max * S / 100 + gap) hc
    have h2 : (S + 1) * (o.max + o.max * S / 100 + gap) =
      S * (o.max + o.max * S / 100 + gap) + (o.max + o.max * S / 100 + gap) := Nat.succ_mul _ _
    simp only [lastTime, List.getLast?_nil, Option.map_none, Option.getD_none]
    omega
  | cons c cs ih =>
    obtain ⟨now, n⟩ := c
    intro w last ht hc hsl h0 hl hs hch hrun
    obtain ⟨c1, c2, c3, c4⟩ := hch
    rw [lastTime_cons]
    unfold Wait.run Wait.check at hrun
    by_cases hn : n > w.counter
    · rw [if_pos hn] at hrun
      refine ih _ now ?_ c3 (Nat.le_refl _) (by show t0 ≤ now; omega) (Nat.le_add_right _ _) ?_ c4 hrun
      · simp only [QueryOptions.updateRoundtrip]
        exact (computeTimeout_bounds o h _).2
      · have h1 := Nat.mul_le_mul_right (o.max + o.max * S / 100 + gap) (show w.counter + 1 ≤ n from hn)
        rw [Nat.succ_mul] at h1
        show now ≤ t0 + n * _
        omega
    · rw [if_neg hn] at hrun
      by_cases hto : isTimedOut (now - w.start) w.timeout w.counter = true
      · rw [if_pos hto] at hrun; cases hrun
      · rw [if_neg hto] at hrun
        refine ih w now ht hc (by omega) h0 ?_ hs c4 hrun
        simp only [isTimedOut, decide_eq_true_eq, Nat.not_lt] at hto
        have h1 : w.timeout * w.counter ≤ o.max * S := Nat.mul_le_mul ht hc
        have h2 := Nat.div_le_div_right (c := 100) h1
        omega

/-- C43: every wait ends: with checks at most `gap` apart and at most `S` updates, a loop still running
was started at most `(S + 1) * (max + max * S / 100 + gap)` ago. -/
theorem C43_waits_end_partial (o : QueryOptions) (h : o.min ≤ o.max) (gap S t0 : Nat) (r : Option Nat)
    (cs : List (Nat × Nat)) (hcs : Checks gap S t0 cs)
    (hrun : ((Wait.mk t0 (o.computeTimeout r) (r.getD 0) 0).run o cs).isSome) :
    lastTime t0 cs ≤ t0 + (S + 1) * (o.max + o.max * S / 100 + gap) :=
  wait_aux o h gap S t0 cs _ t0 (computeTimeout_bounds o h r).2 (Nat.zero_le _) (Nat.le_refl _)
    (Nat.le_refl _) (Nat.le_add_right _ _) (by simp) hcs hrun

example : 530 ≤ 0 + (3 + 1) * (10000 + 10000 * 3 / 100 + 480) :=
  C43_waits_end_partial ⟨500, 10000⟩ (by decide) 480 3 0 none [(10, 0), (20, 3), (500, 3), (530, 3)] (by simp [Checks])
    (by decide)

/-- C43: without updates a wait does not end before the minimum timeout. -/
theorem C43_not_before_min_partial (o : QueryOptions) (h : o.min ≤ o.max) (w : Wait) (r : Nat)
    (hw : w.timeout = o.computeTimeout (some r)) (now c : Nat) (hn : now ≤ w.start + o.min) :
    (w.check o now c).isSome := by
  unfold Wait.check
  split
  · rfl
  · have := (computeTimeout_bounds o h (some r)).1
    rw [if_neg]
    · rfl
    · simp only [isTimedOut, decide_eq_true_eq, Nat.not_lt]
      omega

example : ((Wait.mk 1000 500 20 0).check ⟨500, 10000⟩ 1500 0).isSome :=
  C43_not_before_min_partial ⟨500, 10000⟩ (by decide) ⟨1000, 500, 20, 0⟩ 20 (by decide) 1500 0 (by decide)

/-- C43: exactly when a wait is over: there is no update since the last one noticed, and the time waited since then is
more than the timeout and one per cent of it (rounded down in total) for each update. -/
theorem C43_ends_exactly (o : QueryOptions) (w : Wait) (now c : Nat) :
    w.check o now c = none ↔ c ≤ w.counter ∧ w.start + (100 * w.timeout + w.timeout * w.counter) / 100 < now := by
  unfold Wait.check
  have hd : (100 * w.timeout + w.timeout * w.counter) / 100 = w.timeout + w.timeout * w.counter / 100 := by omega
  split
  · rename_i h
    constructor
    · intro e; cases e
    · rintro ⟨h1, -⟩; omega
  · rename_i h
    by_cases ht : isTimedOut (now - w.start) w.timeout w.counter = true
    · rw [if_pos ht]
      simp only [isTimedOut, decide_eq_true_eq] at ht
      exact ⟨fun _ => ⟨by omega, by omega⟩, fun _ => rfl⟩
    · rw [if_neg ht]
      simp only [isTimedOut, decide_eq_true_eq] at ht
      constructor
      · intro e; cases e
      · rintro ⟨-, h2⟩; omega

example : ((Wait.mk 0 500 0 0).run ⟨500, 10000⟩ [(10, 0), (20, 3), (500, 3), (530, 3)]).isSome = true ∧
    ((Wait.mk 0 500 0 0).run ⟨500, 10000⟩ [(10, 0), (20, 3), (500, 3), (536, 3)]).isSome = false ∧
    Checks 480 3 0 [(10, 0), (20, 3), (500, 3), (530, 3)] := by
  refine ⟨by decide, by decide, ?_⟩
  simp [Checks]

/-! ### C41: sizes -/

/-- C41 as stated: what the server sends is not rejected by the client for its size. The client's
receiver accepts up to the maximum that was sent in the query (transfers_cache.rs:63, node.rs:181). -/
def C41_full : Prop := ∀ (f : Fec) (z : Zstd) (subs : List Dispatch.QuerySub) (force : Bool)
  (q : OwnedQuery) (b : Bytes) (p n : Nat), q.queryId.length = 32 →
  processRldpQuery z subs force q = .answer b →
  ((Incoming.new f q.maxAnswerSize).processChunk (honestPart f b p n)).2 ≠ .tooBig

/-- Verdict of the receiver on the size. -/
theorem tooBig_first (f : Fec) (max : Nat) (b : Bytes) (p n : Nat) (h : max < b.length) :
    ((Incoming.new f max).processChunk (honestPart f b p n)).2 = .tooBig := by
  unfold Incoming.processChunk
  simp [Incoming.new, honestPart, h]

/-- The server compares the answer alone, the client the answer with its envelope: an answer of 5 bytes
for a maximum of 5 is sent and rejected. -/
theorem C41_full_false : ¬ C41_full := by
  intro h
  have := h Fec.toy Zstd.toy [fun _ _ => .consumed (some [1, 2, 3, 4, 5])] false
    ⟨List.replicate 32 7, 5, [1, 0, 0, 0]⟩
    (writeMessage (.answer (List.replicate 32 7) [1, 2, 3, 4, 5])) 0 0 (by decide) (by decide +kernel)
  exact this (tooBig_first _ _ _ _ _ (by decide +kernel))

/-- What the server sends, in terms of the application's answer. -/
theorem processRldpQuery_answer {z : Zstd} {subs : List Dispatch.QuerySub} {force : Bool}
    {q : OwnedQuery} {b : Bytes} (h : processRldpQuery z subs force q = .answer b) :
    ∃ a a', (Dispatch.processQuery subs (received z q.data)).1 = .processed (some a) ∧
      (a' = a ∨ a' = compress z a) ∧ a'.length ≤ q.maxAnswerSize ∧
      b = writeMessage (.answer q.queryId a') := by
  unfold processRldpQuery at h
  simp only at h
  split at h
  · rename_i a ha
    have hc : (if (decompress z q.data).isSome || force then compress z a else a) = a ∨
        (if (decompress z q.data).isSome || force then compress z a else a) = compress z a := by
      split
      · exact .inr rfl
      · exact .inl rfl
    generalize (if (decompress z q.data).isSome || force then compress z a else a) = a' at h hc
    refine ⟨a, a', ha, hc, ?_⟩
    by_cases hl : a'.length > q.maxAnswerSize
    · rw [if_pos hl] at h; cases h
    · rw [if_neg hl] at h
      exact ⟨by omega, (Processed.answer.inj h).symm⟩
  · cases h
  · cases h
  · cases h

/-- Overhead of the envelope. -/
theorem answer_overhead (q a : Bytes) (hq : q.length = 32) :
    a.length + 37 ≤ (writeMessage (.answer q a)).length ∧
    (writeMessage (.answer q a)).length ≤ a.length + 43 := by
  rw [writeAnswer_length q a hq, writeBytes_length]
  have h1 := padding_le (1 + a.length)
  have h2 := padding_le a.length
  split <;> omega

/-- C41: the server sends nothing longer than the client's maximum plus 43 bytes. -/
theorem C41_bound_partial (z : Zstd) (subs : List Dispatch.QuerySub) (force : Bool) (q : OwnedQuery)
    (b : Bytes) (hq : q.queryId.length = 32) (h : processRldpQuery z subs force q = .answer b) :
    b.length ≤ q.maxAnswerSize + 43 := by
  obtain ⟨a, a', -, -, hl, rfl⟩ := processRldpQuery_answer h
  have := (answer_overhead q.queryId a' hq).2
  omega

/-- C41: if the answer is at least 43 bytes below the client's maximum it is received as soon as the
source symbols of each part in turn have arrived (with any other messages of the server). -/
theorem C41_accepted_partial (f : Fec) (hf : f.Lawful) (z : Zstd) (subs : List Dispatch.QuerySub)
    (force : Bool) (q : OwnedQuery) (b : Bytes) (hq : q.queryId.length = 32)
    (h : processRldpQuery z subs force q = .answer b)
    (ha : ∀ a, (Dispatch.processQuery subs (received z q.data)).1 = .processed (some a) →
      a.length + 43 ≤ q.maxAnswerSize ∧ (compress z a).length + 43 ≤ q.maxAnswerSize)
    (parts : Nat) (hp : b.length ≤ parts * sliceLen) (hp' : parts * sliceLen < b.length + sliceLen)
    (blocks : Nat → List (Nat × Nat))
    (hb : ∀ p, p * sliceLen < b.length → ∀ i, i < f.count (partData b p) → (p, i) ∈ blocks p) :
    ((Receiving.new f q.maxAnswerSize).run
      (honestParts f b ((List.range parts).flatMap blocks))).left = true ∧
    ((Receiving.new f q.maxAnswerSize).run
      (honestParts f b ((List.range parts).flatMap blocks))).transfer.data = b := by
  obtain ⟨a, a', h1, h2, h3, rfl⟩ := processRldpQuery_answer h
  have ho := answer_overhead q.queryId a' hq
  have hl : (writeMessage (.answer q.queryId a')).length ≤ q.maxAnswerSize := by
    have := ha a h1
    rcases h2 with rfl | rfl <;> omega
  have hne : writeMessage (.answer q.queryId a') ≠ [] := by
    intro e
    rw [e] at ho
    simp at ho
  exact C38_liveness_partial f hf _ hne _ hl parts hp hp' blocks hb

/-- An echo of eight bytes: the bounds hold for the answer made of them. -/
example : ∃ b, processRldpQuery Zstd.toy [fun _ q => .consumed (some (q ++ q))] false
      ⟨List.replicate 32 1, 100, [1, 0, 0, 0]⟩ = .answer b ∧ b.length ≤ 100 + 43 ∧
    ((Receiving.new Fec.toy 100).run (honestParts Fec.toy b ((List.range 1).flatMap
      fun _ => (List.range (Fec.toy.count (partData b 0))).map fun i => (0, i)))).transfer.data = b := by
  have h : processRldpQuery Zstd.toy [fun _ q => .consumed (some (q ++ q))] false
      ⟨List.replicate 32 1, 100, [1, 0, 0, 0]⟩ =
      .answer (writeMessage (.answer (List.replicate 32 1) [1, 0, 0, 0, 1, 0, 0, 0])) := by decide +kernel
  refine ⟨_, h, C41_bound_partial _ _ _ _ _ (by decide) h, ?_⟩
  refine (C41_accepted_partial Fec.toy Fec.toy_lawful _ _ _ ⟨List.replicate 32 1, 100, [1, 0, 0, 0]⟩ _ (by decide) h ?_ 1
    (by decide) (by decide) _ ?_).2
  · intro a ha
    have : (Dispatch.processQuery [fun _ q => .consumed (some (q ++ q))] (received Zstd.toy [1, 0, 0, 0])).1 =
        .processed (some [1, 0, 0, 0, 1, 0, 0, 0]) := by decide +kernel
    rw [this] at ha
    cases ha
    decide +kernel
  · intro p hp i hi
    have hp0 : p = 0 := by
      have : (writeMessage (.answer (List.replicate 32 1) [1, 0, 0, 0, 1, 0, 0, 0])).length ≤ sliceLen := by decide
      cases p with
      | zero => rfl
      | succ p => rw [Nat.succ_mul] at hp; omega
    subst hp0
    exact List.mem_map.mpr ⟨i, List.mem_range.mpr hi, rfl⟩

/-- C41: conversely, every answer of a length from 36 bytes below the maximum up to the maximum is sent by
the server, and the client never completes the transfer, whatever arrives of it. -/
theorem C41_never_received_partial (f : Fec) (z : Zstd) (subs : List Dispatch.QuerySub)
    (q : OwnedQuery) (a : Bytes) (hq : q.queryId.length = 32) (hz : decompress z q.data = none)
    (hp : (Dispatch.processQuery subs q.data).1 = .processed (some a))
    (ha : a.length ≤ q.maxAnswerSize) (ha' : q.maxAnswerSize < a.length + 37) :
    processRldpQuery z subs false q = .answer (writeMessage (.answer q.queryId a)) ∧
    ∀ xs : List (Nat × Nat), ((Receiving.new f q.maxAnswerSize).run
      (honestParts f (writeMessage (.answer q.queryId a)) xs)).left = false := by
  constructor
  · unfold processRldpQuery received
    rw [hz]
    simp only [Option.getD_none, hp, Option.isSome_none, Bool.or_self, Bool.false_eq_true, if_false]
    rw [if_neg (by omega)]
  · intro xs
    have ho := (answer_overhead q.queryId a hq).1
    refine (C37_too_big_partial f q.maxAnswerSize _ ?_).2.2
    intro m hm
    obtain ⟨x, -, rfl⟩ := List.mem_map.1 hm
    show q.maxAnswerSize < (writeMessage (.answer q.queryId a)).length
    omega

example : decompress Zstd.toy [1, 0, 0, 0] = none ∧
    (Dispatch.processQuery [fun _ q => .consumed (some (q ++ q))] [1, 0, 0, 0]).1 =
      .processed (some [1, 0, 0, 0, 1, 0, 0, 0]) ∧
    (compress Zstd.toy [1, 0, 0, 0, 1, 0, 0, 0]).length + 43 ≤ 51 := by decide +kernel

/-! ### C44: results -/

/-- C44: the query returns data exactly if what was received is an answer with its own query id, and then
the data of that answer (decompressed). -/
theorem C44_result_iff (z : Zstd) (queryId answer d : Bytes) :
    queryResult z queryId answer = .data d ↔
      ∃ w r, readMessage answer = some (.answer queryId w, r) ∧ d = received z w := by
  unfold queryResult
  cases h : readMessage answer with
  | none => simp
  | some p =>
    obtain ⟨m, r⟩ := p
    cases m with
    | message i w => simp
    | query q m t w => simp
    | answer i w =>
      simp only
      constructor
      · intro e
        split at e
        · rename_i hi
          subst hi
          exact ⟨w, r, rfl, (QueryResult.data.inj e).symm⟩
        · cases e
      · rintro ⟨w', r', e, rfl⟩
        cases e
        rw [if_pos rfl]

/-- C44: an answer to another query is reported as such. -/
theorem C44_mismatch (z : Zstd) (queryId other w rest : Bytes) (ho : other.length = 32)
    (hw : w.length < 2 ^ 24) (h : other ≠ queryId) :
    queryResult z queryId (writeMessage (.answer other w) ++ rest) = .queryIdMismatch := by
  unfold queryResult
  rw [message_encodes (.answer other w) ⟨ho, hw⟩ rest]
  simp only
  rw [if_neg h]

example : queryResult Zstd.toy (List.replicate 32 1) (writeMessage (.answer (List.replicate 32 2) [1, 2]) ++ []) =
    .queryIdMismatch :=
  C44_mismatch Zstd.toy _ _ [1, 2] [] List.length_replicate (by decide) (by decide)

/-- C44, from end to end: if the server takes up the client's query and sends an answer, the application
was asked with the client's data, and the client's result is the application's answer - up to the
compression of C36 in both directions. -/
theorem C44_end_to_end (z : Zstd) (subs : List Dispatch.QuerySub) (forceC forceS : Bool)
    (maxAnswer timeout : Nat) (queryId data b : Bytes) (hq : queryId.length = 32)
    (hmax : maxAnswer < 2 ^ 24) (ht : timeout < 2 ^ 32)
    (hd : data.length < 2 ^ 24) (hd' : (compress z data).length < 2 ^ 24)
    (h : serve z subs forceS (makeQuery z forceC maxAnswer timeout queryId data) = some (.answer b)) :
    ∃ asked a sent, asked = (if forceC then compress z data else data) ∧
      (Dispatch.processQuery subs (received z asked)).1 = .processed (some a) ∧
      (sent = a ∨ sent = compress z a) ∧
      queryResult z queryId b = .data (received z sent) := by
  unfold serve makeQuery at h
  have hw : (if forceC then compress z data else data).length < 2 ^ 24 := by split <;> assumption
  have hf : fromData (writeMessage (.query queryId maxAnswer timeout
      (if forceC then compress z data else data))) =
      some ⟨queryId, maxAnswer, if forceC then compress z data else data⟩ := by
    rw [C60_from_data]
    refine ⟨timeout, [], ?_⟩
    have := message_encodes (.query queryId maxAnswer timeout
      (if forceC then compress z data else data)) ⟨hq, by omega, ht, hw⟩ []
    rwa [List.append_nil] at this
  rw [hf, Option.map_some] at h
  obtain ⟨a, a', h1, h2, h3, rfl⟩ := processRldpQuery_answer (Option.some.inj h)
  refine ⟨_, a, a', rfl, h1, h2, ?_⟩
  rw [C44_result_iff]
  refine ⟨a', [], ?_, rfl⟩
  have := message_encodes (.answer queryId a') ⟨hq, Nat.lt_of_le_of_lt h3 hmax⟩ []
  rwa [List.append_nil] at this

example : serve Zstd.toy [fun _ q => .consumed (some (q ++ q))] false
      (makeQuery Zstd.toy false 100 7 (List.replicate 32 1) [1, 0, 0, 0]) =
      some (.answer (writeMessage (.answer (List.replicate 32 1) [1, 0, 0, 0, 1, 0, 0, 0]))) ∧
    queryResult Zstd.toy (List.replicate 32 1)
      (writeMessage (.answer (List.replicate 32 1) [1, 0, 0, 0, 1, 0, 0, 0])) =
      .data [1, 0, 0, 0, 1, 0, 0, 0] := by
  constructor <;> decide +kernel

end Verif.Rldp
