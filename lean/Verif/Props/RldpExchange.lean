import Verif.Props.RldpFinish
import Verif.Props.RldpQuery
import Verif.Model.RldpExchange

/-!
# C107: an RLDP query gets the answer of the other side's handler
-/
namespace Verif.Rldp

variable {f : Fec}

/-! ### A receiver that is done has what was sent, also with timeouts -/

theorem expired_recv (build : Build) (as : List Act) : ∀ (s : Sys f), s.expired = true →
    (s.run build as).recv = s.recv := by
  induction as with
  | nil => intro s _; rfl
  | cons a as ih =>
    intro s h
    have key : (s.step build a).expired = true ∧ (s.step build a).recv = s.recv := by
      cases a with
      | begin =>
        simp only [Sys.step]
        split
        · unfold Sys.begin; split <;> exact ⟨h, rfl⟩
        · exact ⟨h, rfl⟩
      | bind => simp only [Sys.step]; split <;> exact ⟨h, rfl⟩
      | chunk =>
        simp only [Sys.step]
        split
        · unfold Sys.chunk; split <;> exact ⟨h, rfl⟩
        · exact ⟨h, rfl⟩
      | check =>
        simp only [Sys.step]
        split
        · unfold Sys.check; split <;> exact ⟨h, rfl⟩
        · exact ⟨h, rfl⟩
      | giveUp => simp only [Sys.step]; split <;> exact ⟨h, rfl⟩
      | deliver i =>
        simp only [Sys.step]
        split
        · unfold Sys.receive
          rw [h]
          exact ⟨rfl, rfl⟩
        · exact ⟨h, rfl⟩
      | ack i =>
        simp only [Sys.step]
        split
        · split <;> exact ⟨h, rfl⟩
        · exact ⟨h, rfl⟩
      | reply => simp only [Sys.step]; split <;> exact ⟨h, rfl⟩
      | expire => exact ⟨rfl, rfl⟩
    exact (ih _ key.1).trans key.2

theorem before_expiry (build : Build) (as : List Act) : ∀ (s : Sys f), ∃ bs, (∀ a ∈ bs, a ≠ .expire) ∧
    (s.run build as).recv = (s.run build bs).recv := by
  induction as with
  | nil => intro s; exact ⟨[], fun _ h => absurd h List.not_mem_nil, rfl⟩
  | cons a as ih =>
    intro s
    by_cases h : a = .expire
    · subst h
      refine ⟨[], fun _ h => absurd h List.not_mem_nil, ?_⟩
      exact expired_recv build as (s.step build .expire) rfl
    · obtain ⟨bs, h1, h2⟩ := ih (s.step build a)
      refine ⟨a :: bs, ?_, h2⟩
      intro x hx
      rcases List.mem_cons.mp hx with rfl | hx
      · exact h
      · exact h1 x hx

/-- Too long for the receiver: nothing is ever stored. -/
structure TooLong (data : Bytes) (max : Nat) (s : Sys f) : Prop where
  out : s.out.data = data
  net : ∀ m ∈ s.net, m.totalSize = data.length
  recv : s.recv.transfer = Incoming.new f max
  left : s.recv.left = false

theorem tooLong_step (build : Build) {data : Bytes} {max : Nat} (hl : max < data.length) {s : Sys f}
    (h : TooLong data max s) (a : Act) : TooLong data max (s.step build a) := by
  cases a with
  | begin =>
    simp only [Sys.step]
    split
    · have : (s.out.startNextPart f).1.data = s.out.data := by
        unfold Outgoing.startNextPart
        split
        · rfl
        · split <;> rfl
      unfold Sys.begin
      generalize s.out.startNextPart f = r at this
      obtain ⟨o, n⟩ := r
      cases n <;> exact ⟨this.trans h.out, h.net, h.recv, h.left⟩
    · exact h
  | bind => simp only [Sys.step]; split <;> exact ⟨h.out, h.net, h.recv, h.left⟩
  | chunk =>
    simp only [Sys.step]
    split
    · unfold Sys.chunk
      cases he : s.out.enc with
      | none =>
        have : s.out.prepareChunk f build = (s.out, .notReady) := by unfold Outgoing.prepareChunk; rw [he]
        rw [this]
        exact ⟨h.out, h.net, h.recv, h.left⟩
      | some e =>
        obtain ⟨h1, -, -, -, -, h6⟩ := prepareChunk_spec f build s.out he
        generalize s.out.prepareChunk f build = r at h1 h6
        obtain ⟨o, k⟩ := r
        cases k with
        | part m =>
          refine ⟨h1.trans h.out, ?_, h.recv, h.left⟩
          intro x hx
          rcases List.mem_append.mp hx with hx | hx
          · exact h.net x hx
          · rw [List.mem_singleton] at hx
            subst hx
            obtain ⟨n, e⟩ := h6 x rfl
            rw [e]
            show s.out.data.length = _
            rw [h.out]
        | notReady => exact ⟨h1.trans h.out, h.net, h.recv, h.left⟩
        | panic => exact ⟨h1.trans h.out, h.net, h.recv, h.left⟩
    · exact h
  | check =>
    simp only [Sys.step]
    split
    · unfold Sys.check; split <;> exact ⟨h.out, h.net, h.recv, h.left⟩
    · exact h
  | giveUp => simp only [Sys.step]; split <;> exact ⟨h.out, h.net, h.recv, h.left⟩
  | deliver i =>
    simp only [Sys.step]
    cases hm : s.net[i]? with
    | none => exact h
    | some m =>
      simp only
      have ht := h.net m (List.mem_of_getElem? hm)
      unfold Sys.receive
      split
      · exact ⟨h.out, h.net, h.recv, h.left⟩
      · have e : s.recv.transfer.processChunk m = (Incoming.new f max, .tooBig) := by
          rw [h.recv]
          unfold Incoming.processChunk
          have hg : m.totalSize > (Incoming.new f max).maxSize := by rw [ht]; exact hl
          exact if_pos hg
        simp only [Receiving.step, h.left, e]
        exact ⟨h.out, h.net, rfl, rfl⟩
  | ack i =>
    simp only [Sys.step]
    split
    · split
      · exact ⟨h.out, h.net, h.recv, h.left⟩
      · exact h
    · exact h
  | reply => simp only [Sys.step]; split <;> exact ⟨h.out, h.net, h.recv, h.left⟩
  | expire => exact ⟨h.out, h.net, h.recv, h.left⟩

theorem tooLong_run (build : Build) {data : Bytes} {max : Nat} (hl : max < data.length) (as : List Act) :
    ∀ {s : Sys f}, TooLong data max s → TooLong data max (s.run build as) := by
  induction as with
  | nil => intro s h; exact h
  | cons a as ih => intro s h; exact ih (tooLong_step build hl h a)

theorem complete_is_data (hf : f.Lawful) (build : Build) {data : Bytes} (hd : data ≠ []) (h32 : data.length < 2 ^ 32)
    (max : Nat) (as : List Act) (hl : ((Sys.init f data max).run build as).recv.left = true) :
    ((Sys.init f data max).run build as).recv.transfer.data = data := by
  by_cases hm : data.length ≤ max
  · obtain ⟨bs, h1, h2⟩ := before_expiry build as (Sys.init f data max)
    rw [h2] at hl ⊢
    obtain ⟨b, h⟩ := run_inv hf build h32 bs (sinv_init f hd hm) h1
    obtain ⟨ns, hh⟩ := h.honest
    exact hh.left hl
  · have := (tooLong_run build (Nat.lt_of_not_le hm) as (s := Sys.init f data max)
      ⟨rfl, fun _ h => absurd h List.not_mem_nil, rfl, rfl⟩).left
    rw [this] at hl
    cases hl

/-! ### Every state of the exchange consists of states of the two transfers -/

/-- `P` holds for the steps of the transfers so far. -/
structure XInv (c : Setup) (build : Build) (P : Act → Prop) (x : Exchange f) : Prop where
  query : ∃ as, (∀ a ∈ as, P a) ∧ x.query = (Sys.init f c.query c.maxServer).run build as
  served : x.served = true → x.query.recv.left = true ∧ (x.answer = none →
    ∀ b, serve c.zstd c.subs c.forceServer c.query ≠ some (.answer b))
  answer : ∀ s, x.answer = some s → x.served = true ∧ ∃ b as,
    serve c.zstd c.subs c.forceServer c.query = some (.answer b) ∧ (x.ended = none → ∀ a ∈ as, P a) ∧
    s = (Sys.init f b c.maxClient).run build as
  ended : ∀ r, x.ended = some (.with r) → ∃ b,
    serve c.zstd c.subs c.forceServer c.query = some (.answer b) ∧ r = queryResult c.zstd c.queryId b

/-- The answer in its envelope. -/
theorem serve_answer {z : Zstd} {subs : List Dispatch.QuerySub} {force : Bool} {d b : Bytes}
    (h : serve z subs force d = some (.answer b)) : b ≠ [] := by
  unfold serve at h
  cases hq : fromData d with
  | none => rw [hq] at h; cases h
  | some q =>
    rw [hq, Option.map_some] at h
    obtain ⟨a, a', -, -, -, rfl⟩ := processRldpQuery_answer (Option.some.inj h)
    intro e
    have := congrArg List.length e
    simp [writeMessage, Tl.writeU32] at this

theorem serve_short {z : Zstd} {subs : List Dispatch.QuerySub} {force : Bool} {d b : Bytes}
    (h : serve z subs force d = some (.answer b)) : ∃ q a', fromData d = some q ∧ a'.length ≤ q.maxAnswerSize ∧
      b = writeMessage (.answer q.queryId a') := by
  unfold serve at h
  cases hq : fromData d with
  | none => rw [hq] at h; cases h
  | some q =>
    rw [hq, Option.map_some] at h
    obtain ⟨a, a', -, -, hl, hb⟩ := processRldpQuery_answer (Option.some.inj h)
    exact ⟨q, a', rfl, hl, hb⟩

/-- Sizes for which the wire format is unambiguous (the assumptions of C44). -/
structure Setup.Ok (c : Setup) : Prop where
  id : c.queryId.length = 32
  max : c.maxClient < 2 ^ 24
  timeout : c.timeout < 2 ^ 32
  data : c.data.length < 2 ^ 24
  packed : (compress c.zstd c.data).length < 2 ^ 24

/-- What is sent as payload of the query. -/
def Setup.payload (c : Setup) : Bytes := if c.forceClient then compress c.zstd c.data else c.data

theorem Setup.Ok.fromData {c : Setup} (h : c.Ok) : fromData c.query = some ⟨c.queryId, c.maxClient, c.payload⟩ := by
  have hw : c.payload.length < 2 ^ 24 := by
    unfold Setup.payload
    split
    · exact h.packed
    · exact h.data
  have hm := h.max
  show Rldp.fromData (writeMessage (.query c.queryId c.maxClient c.timeout c.payload)) = _
  rw [C60_from_data]
  refine ⟨c.timeout, [], ?_⟩
  have := message_encodes (.query c.queryId c.maxClient c.timeout c.payload) ⟨h.id, by omega, h.timeout, hw⟩ []
  rwa [List.append_nil] at this

theorem query_nonempty (c : Setup) : c.query ≠ [] := by
  intro e
  have := congrArg List.length e
  simp [Setup.query, makeQuery, writeMessage, Tl.writeU32] at this

theorem Setup.Ok.query_length {c : Setup} (h : c.Ok) : c.query.length < 2 ^ 32 := by
  have hw : c.payload.length < 2 ^ 24 := by
    unfold Setup.payload
    split
    · exact h.packed
    · exact h.data
  have hid := h.id
  show (writeMessage (.query c.queryId c.maxClient c.timeout c.payload)).length < 2 ^ 32
  have h1 := padding_le (1 + c.payload.length)
  have h2 := padding_le c.payload.length
  simp only [writeMessage, List.length_append, Tl.writeU32_length, Tl.writeU64_length, writeBytes_length]
  split <;> omega

theorem Setup.Ok.answer_length {c : Setup} (h : c.Ok) {b : Bytes}
    (hb : serve c.zstd c.subs c.forceServer c.query = some (.answer b)) : b.length < 2 ^ 32 := by
  obtain ⟨q, a', hq, hl, rfl⟩ := serve_short hb
  rw [h.fromData] at hq
  cases hq
  have := (answer_overhead c.queryId a' h.id).2
  have hm := h.max
  simp only at hl ⊢
  omega

theorem step_left (build : Build) (s : Sys f) (a : Act) (h : s.recv.left = true) :
    (s.step build a).recv.left = true := by
  cases a with
  | begin =>
    simp only [Sys.step]
    split
    · unfold Sys.begin; split <;> exact h
    · exact h
  | bind => simp only [Sys.step]; split <;> exact h
  | chunk =>
    simp only [Sys.step]
    split
    · unfold Sys.chunk; split <;> exact h
    · exact h
  | check =>
    simp only [Sys.step]
    split
    · unfold Sys.check; split <;> exact h
    · exact h
  | giveUp => simp only [Sys.step]; split <;> exact h
  | deliver i =>
    simp only [Sys.step]
    split
    · unfold Sys.receive
      split
      · exact h
      · simp only [Receiving.step, h, if_true]
    · exact h
  | ack i =>
    simp only [Sys.step]
    split
    · split <;> exact h
    · exact h
  | reply => simp only [Sys.step]; split <;> exact h
  | expire => exact h

theorem closed_eq (build : Build) (s : Sys f) : s.closed true = s.step build .expire := rfl

theorem xinv_step (hf : f.Lawful) {c : Setup} (hc : c.Ok) {build : Build} {P : Act → Prop} (hr : P .reply)
    {x : Exchange f} (h : XInv c build P x) (a : XAct) (hq : ∀ a', a = .query a' → P a')
    (ha : ∀ a', a = .answer a' → P a') : XInv c build P (x.step c build a) := by
  obtain ⟨as, hP, hx⟩ := h.query
  have snoc : ∀ a', P a' → ∃ as, (∀ a ∈ as, P a) ∧
      x.query.step build a' = (Sys.init f c.query c.maxServer).run build as := by
    intro a' ha'
    refine ⟨as ++ [a'], ?_, ?_⟩
    · intro y hy
      rcases List.mem_append.mp hy with hy | hy
      · exact hP y hy
      · rw [List.mem_singleton] at hy; subst hy; exact ha'
    · rw [run_append, ← hx]; rfl
  have left_step := fun a' => step_left build x.query a'
  cases a with
  | query a' =>
    have h1 := hq a' rfl
    by_cases hre : a' = .reply
    · subst hre; exact h
    have e : x.step c build (.query a') = { x with query := x.query.step build a' } := by
      cases a' <;> first | rfl | exact absurd rfl hre
    rw [e]
    exact ⟨snoc a' h1, fun hs => ⟨left_step a' (h.served hs).1, (h.served hs).2⟩, h.answer, h.ended⟩
  | serve =>
    simp only [Exchange.step]
    split
    · rename_i hcond
      rw [Bool.and_eq_true] at hcond
      have hd : x.query.recv.transfer.data = c.query := by
        have hl := hcond.1
        rw [hx] at hl ⊢
        exact complete_is_data hf build (query_nonempty c) hc.query_length _ as hl
      rw [hd]
      cases hs : serve c.zstd c.subs c.forceServer c.query with
      | none =>
        refine ⟨⟨as, hP, hx⟩, fun _ => ⟨hcond.1, fun _ b hb => ?_⟩, fun s hs' => (nomatch hs'), h.ended⟩
        rw [hs] at hb; cases hb
      | some r =>
        cases r with
        | answer b =>
          refine ⟨⟨as, hP, hx⟩, fun _ => ⟨hcond.1, fun hn => by cases hn⟩, fun s hs' => ⟨rfl, ?_⟩, h.ended⟩
          simp only [Option.some.injEq] at hs'
          subst hs'
          cases he : x.ended with
          | none =>
            exact ⟨b, [], hs, fun _ _ hm => absurd hm List.not_mem_nil, rfl⟩
          | some e => exact ⟨b, [.expire], hs, fun hn => (nomatch hn), rfl⟩
        | nothing =>
          exact ⟨⟨as, hP, hx⟩, fun _ => ⟨hcond.1, fun _ b hb => by { rw [hs] at hb; cases hb }⟩, fun s hs' => (nomatch hs'),
            h.ended⟩
        | rejected =>
          exact ⟨⟨as, hP, hx⟩, fun _ => ⟨hcond.1, fun _ b hb => by { rw [hs] at hb; cases hb }⟩, fun s hs' => (nomatch hs'),
            h.ended⟩
        | error =>
          exact ⟨⟨as, hP, hx⟩, fun _ => ⟨hcond.1, fun _ b hb => by { rw [hs] at hb; cases hb }⟩, fun s hs' => (nomatch hs'),
            h.ended⟩
        | answerTooBig =>
          exact ⟨⟨as, hP, hx⟩, fun _ => ⟨hcond.1, fun _ b hb => by { rw [hs] at hb; cases hb }⟩, fun s hs' => (nomatch hs'),
            h.ended⟩
    · exact h
  | answer a' =>
    have h1 := ha a' rfl
    by_cases hre : a' = .reply
    · subst hre; exact h
    cases hs : x.answer with
    | none =>
      have e : x.step c build (.answer a') = x := by
        cases a' <;> first | exact absurd rfl hre | simp only [Exchange.step, hs]
      rw [e]; exact h
    | some s =>
      have e : x.step c build (.answer a') = { x with query := x.noted build s a', answer := some (s.step build a') } := by
        cases a' <;> first | exact absurd rfl hre | simp only [Exchange.step, hs]
      rw [e]
      have hn : x.noted build s a' = x.query ∨ x.noted build s a' = x.query.step build .reply := by
        cases a' <;> first | exact .inl rfl | skip
        simp only [Exchange.noted]
        split
        · exact .inr rfl
        · exact .inl rfl
      obtain ⟨hsv, b, as2, hb, hP2, hs2⟩ := h.answer s hs
      refine ⟨?_, ?_, ?_, h.ended⟩
      · simp only
        rcases hn with hn | hn <;> rw [hn]
        · exact ⟨as, hP, hx⟩
        · exact snoc .reply hr
      · intro hsv'
        refine ⟨?_, fun hnone => by cases hnone⟩
        simp only
        rcases hn with hn | hn <;> rw [hn]
        · exact (h.served hsv).1
        · exact left_step _ (h.served hsv).1
      · intro s' hs'
        simp only [Option.some.injEq] at hs'
        subst hs'
        refine ⟨hsv, b, as2 ++ [a'], hb, ?_, ?_⟩
        · intro he y hy
          rcases List.mem_append.mp hy with hy | hy
          · exact hP2 he y hy
          · rw [List.mem_singleton] at hy; subst hy; exact h1
        · rw [run_append, ← hs2]; rfl
  | finish =>
    simp only [Exchange.step]
    cases hs : x.answer with
    | none => exact h
    | some s =>
      simp only
      split
      · rename_i hcond
        simp only [Bool.and_eq_true] at hcond
        obtain ⟨hsv, b, as2, hb, hP2, hs2⟩ := h.answer s hs
        have hd : s.recv.transfer.data = b := by
          have hl := hcond.2
          rw [hs2] at hl ⊢
          exact complete_is_data hf build (serve_answer hb) (hc.answer_length hb) _ as2 hl
        refine ⟨⟨as, hP, hx⟩, fun hsv' => ⟨(h.served hsv).1, fun hn => by cases hn⟩, ?_, ?_⟩
        · intro s' hs'
          simp only [Option.some.injEq] at hs'
          subst hs'
          refine ⟨hsv, b, as2 ++ [.expire], hb, fun hn => (nomatch hn), ?_⟩
          rw [run_append, ← hs2]; rfl
        · intro r hr'
          simp only [Option.some.injEq, Ended.with.injEq] at hr'
          exact ⟨b, hb, by rw [← hr', hd]⟩
      · exact h
  | giveUp =>
    simp only [Exchange.step]
    split
    · refine ⟨⟨as, hP, hx⟩, fun hsv => ⟨(h.served hsv).1, fun hn => ?_⟩, ?_, fun r hr' => by cases hr'⟩
      · refine (h.served hsv).2 ?_
        cases hx' : x.answer with
        | none => rfl
        | some s => simp only [hx', Option.map_some] at hn; cases hn
      · intro s' hs'
        cases hx' : x.answer with
        | none => simp only [hx', Option.map_none] at hs'; cases hs'
        | some s =>
          simp only [hx', Option.map_some, Option.some.injEq] at hs'
          subst hs'
          obtain ⟨hsv, b, as2, hb, hP2, hs2⟩ := h.answer s hx'
          refine ⟨hsv, b, as2 ++ [.expire], hb, fun hn => (nomatch hn), ?_⟩
          rw [run_append, ← hs2]; rfl
    · exact h

theorem xinv_init (c : Setup) (build : Build) (P : Act → Prop) : XInv c build P (Exchange.init f c) :=
  ⟨⟨[], fun _ h => absurd h List.not_mem_nil, rfl⟩, fun h => (nomatch h), fun _ h => (nomatch h), fun _ h => (nomatch h)⟩

theorem xinv_run (hf : f.Lawful) {c : Setup} (hc : c.Ok) {build : Build} {P : Act → Prop} (hr : P .reply)
    (xs : List XAct) : ∀ {x : Exchange f}, XInv c build P x →
    (∀ a, XAct.query a ∈ xs → P a) → (∀ a, XAct.answer a ∈ xs → P a) → XInv c build P (x.run c build xs) := by
  induction xs with
  | nil => intro x h _ _; exact h
  | cons y ys ih =>
    intro x h h1 h2
    refine ih (xinv_step hf hc hr h y (fun a' e => h1 a' (by rw [e]; exact List.mem_cons_self))
      (fun a' e => h2 a' (by rw [e]; exact List.mem_cons_self)))
      (fun a ha => h1 a (List.mem_cons_of_mem _ ha)) (fun a ha => h2 a (List.mem_cons_of_mem _ ha))

/-- What the server sends for the application's answer `a`: compressed if the query was, or if it always does. -/
def Setup.sent (c : Setup) (a : Bytes) : Bytes :=
  if (decompress c.zstd c.payload).isSome || c.forceServer then compress c.zstd a else a

/-- Whom the query is for: the application, with the payload as the client gave it. -/
def Setup.application (c : Setup) : Dispatch.Outcome := (Dispatch.processQuery c.subs (received c.zstd c.payload)).1

theorem Setup.Ok.serve_iff {c : Setup} (h : c.Ok) (b : Bytes) :
    serve c.zstd c.subs c.forceServer c.query = some (.answer b) ↔
      ∃ a, c.application = .processed (some a) ∧ (c.sent a).length ≤ c.maxClient ∧
        b = writeMessage (.answer c.queryId (c.sent a)) := by
  unfold serve
  rw [h.fromData, Option.map_some]
  unfold processRldpQuery
  simp only
  show some (match c.application with
    | .processed (some a) => if (c.sent a).length > c.maxClient then Processed.answerTooBig
        else .answer (writeMessage (.answer c.queryId (c.sent a)))
    | .processed none => .nothing
    | .rejected => .rejected
    | .error => .error) = some (.answer b) ↔ _
  cases ho : c.application with
  | rejected => simp
  | error => simp
  | processed o =>
    cases o with
    | none => simp
    | some a =>
      simp only [Option.some.injEq, Dispatch.Outcome.processed.injEq, exists_eq_left']
      by_cases hl : (c.sent a).length > c.maxClient
      · rw [if_pos hl]
        constructor
        · intro h; cases h
        · intro h; omega
      · rw [if_neg hl]
        constructor
        · intro h; cases h; exact ⟨by omega, rfl⟩
        · intro h; rw [h.2]

theorem Setup.Ok.result {c : Setup} (h : c.Ok) (a : Bytes) (hl : (c.sent a).length ≤ c.maxClient) :
    queryResult c.zstd c.queryId (writeMessage (.answer c.queryId (c.sent a))) = .data (received c.zstd (c.sent a)) := by
  rw [C44_result_iff]
  refine ⟨c.sent a, [], ?_, rfl⟩
  have := message_encodes (.answer c.queryId (c.sent a)) ⟨h.id, Nat.lt_of_le_of_lt hl h.max⟩ []
  rwa [List.append_nil] at this

/-- C107: whatever the network does and whenever timeouts happen, a query that ends with an answer ends with the
application's answer to that query (up to compression, C36), never with an error about its content. -/
theorem C107_result (f : Fec) (hf : f.Lawful) (c : Setup) (hc : c.Ok) (build : Build) (xs : List XAct) (r : QueryResult)
    (h : ((Exchange.init f c).run c build xs).ended = some (.with r)) :
    ∃ a, c.application = .processed (some a) ∧ r = .data (received c.zstd (c.sent a)) := by
  obtain ⟨b, hb, hr⟩ := (xinv_run hf hc (P := fun _ => True) trivial xs (xinv_init c build _) (fun _ _ => trivial)
    (fun _ _ => trivial)).ended r h
  obtain ⟨a, h1, h2, rfl⟩ := (hc.serve_iff b).mp hb
  exact ⟨a, h1, hr.trans (hc.result a h2)⟩

/-- C107: whatever the network does, the application is only asked what the client asked. -/
theorem C107_asked (f : Fec) (hf : f.Lawful) (c : Setup) (hc : c.Ok) (build : Build) (xs : List XAct)
    (h : ((Exchange.init f c).run c build xs).query.recv.left = true) :
    fromData ((Exchange.init f c).run c build xs).query.recv.transfer.data =
      some ⟨c.queryId, c.maxClient, c.payload⟩ := by
  obtain ⟨as, -, e⟩ := (xinv_run hf hc (P := fun _ => True) trivial xs (xinv_init (f := f) c build _) (fun _ _ => trivial)
    (fun _ _ => trivial)).query
  rw [e] at h ⊢
  rw [complete_is_data hf build (query_nonempty c) hc.query_length _ as h, hc.fromData]

/-! ### The query can be finished -/

theorem run_query (c : Setup) (build : Build) (bs : List Act) : ∀ (x : Exchange f), (∀ a ∈ bs, a ≠ .reply) →
    x.run c build (bs.map .query) = { x with query := x.query.run build bs } := by
  induction bs with
  | nil => intro x _; rfl
  | cons a bs ih =>
    intro x h
    have e : x.step c build (.query a) = { x with query := x.query.step build a } := by
      have := h a List.mem_cons_self
      cases a <;> first | exact absurd rfl this | rfl
    show (x.step c build (.query a)).run c build (bs.map .query) = _
    rw [e, ih _ (fun y hy => h y (List.mem_cons_of_mem _ hy))]
    rfl

theorem noted_phase (build : Build) (x : Exchange f) (s : Sys f) (a : Act) :
    (x.noted build s a).phase = x.query.phase := by
  cases a <;> try rfl
  simp only [Exchange.noted]
  split
  · simp only [Sys.step]; split <;> rfl
  · rfl

theorem run_answer (c : Setup) (build : Build) (bs : List Act) : ∀ (x : Exchange f) (s : Sys f), x.answer = some s →
    (∀ a ∈ bs, a ≠ .reply) → (x.run c build (bs.map .answer)).answer = some (s.run build bs) ∧
    (x.run c build (bs.map .answer)).ended = x.ended ∧
    (x.run c build (bs.map .answer)).query.phase = x.query.phase := by
  induction bs with
  | nil => intro x s h _; exact ⟨h, rfl, rfl⟩
  | cons a bs ih =>
    intro x s hs h
    have e : x.step c build (.answer a) = { x with query := x.noted build s a, answer := some (s.step build a) } := by
      have := h a List.mem_cons_self
      cases a <;> first | exact absurd rfl this | simp only [Exchange.step, hs]
    show ((x.step c build (.answer a)).run c build (bs.map .answer)).answer = _ ∧
      ((x.step c build (.answer a)).run c build (bs.map .answer)).ended = _ ∧
      ((x.step c build (.answer a)).run c build (bs.map .answer)).query.phase = _
    rw [e]
    obtain ⟨h1, h2, h3⟩ := ih { x with query := x.noted build s a, answer := some (s.step build a) } (s.step build a) rfl
      (fun y hy => h y (List.mem_cons_of_mem _ hy))
    exact ⟨h1, h2, h3.trans (noted_phase build x s a)⟩

theorem not_given_up (c : Setup) (build : Build) (xs : List XAct) : ∀ (x : Exchange f), x.ended ≠ some .without →
    XAct.giveUp ∉ xs → (x.run c build xs).ended ≠ some .without := by
  induction xs with
  | nil => intro x h _; exact h
  | cons y ys ih =>
    intro x h hn
    refine ih _ ?_ (fun h => hn (List.mem_cons_of_mem _ h))
    cases y with
    | query a => cases a <;> exact h
    | serve => simp only [Exchange.step]; split <;> exact h
    | answer a => cases a <;> simp only [Exchange.step] <;> first | exact h | (split <;> exact h)
    | finish =>
      simp only [Exchange.step]
      split
      · split
        · simp
        · exact h
      · exact h
    | giveUp => exact absurd List.mem_cons_self hn

theorem Exchange.run_append (c : Setup) (build : Build) (x : Exchange f) (as bs : List XAct) :
    x.run c build (as ++ bs) = (x.run c build as).run c build bs := by
  simp [Exchange.run, List.foldl_append]

/-- From every reachable state of a transfer without timeouts the sender can be brought to success. -/
theorem transfer_ends (hf : f.Lawful) {data : Bytes} (hd : data ≠ []) (h32 : data.length < 2 ^ 32) {max : Nat}
    (hm : data.length ≤ max) (as : List Act) (ha : ∀ a ∈ as, a ≠ .expire ∧ a ≠ .giveUp) :
    ∃ bs, Calm bs ∧ (((Sys.init f data max).run .release as).run .release bs).phase = .ok ∧
      (((Sys.init f data max).run .release as).run .release bs).recv.left = true := by
  cases hp : ((Sys.init f data max).run .release as).phase.running with
  | true =>
    obtain ⟨bs, h1, h2, h3, -⟩ := C106_release_partial f hf data hd h32 max hm as (fun a h => (ha a h).1) hp
    rw [run_append] at h2 h3
    exact ⟨bs, h1, h2, h3⟩
  | false =>
    have hnf := C106_fails_by_timeout_only f hf data hd h32 max hm as ha
    have hok : ((Sys.init f data max).run .release as).phase = .ok := by
      cases hq : ((Sys.init f data max).run .release as).phase with
      | ok => rfl
      | failed => exact absurd hq hnf
      | start => rw [hq] at hp; cases hp
      | begun => rw [hq] at hp; cases hp
      | sending p => rw [hq] at hp; cases hp
    obtain ⟨b, h⟩ := run_inv hf .release h32 as (sinv_init f hd hm) (fun a h => (ha a h).1)
    exact ⟨[], fun _ h => absurd h List.not_mem_nil, hok, h.atOk hok⟩

/-- C107: whatever was lost, repeated or reordered so far, as long as nobody gave up, the query can still end with the
application's answer, if the query fits the server's limit and the answer with its envelope the client's (C41). -/
theorem C107_can_finish (f : Fec) (hf : f.Lawful) (c : Setup) (hc : c.Ok) (hs : c.query.length ≤ c.maxServer) (a : Bytes)
    (ha : c.application = .processed (some a)) (hl : (c.sent a).length + 43 ≤ c.maxClient) (xs : List XAct)
    (h1 : ∀ a, XAct.query a ∈ xs → a ≠ .expire ∧ a ≠ .giveUp) (h2 : ∀ a, XAct.answer a ∈ xs → a ≠ .expire ∧ a ≠ .giveUp)
    (h3 : XAct.giveUp ∉ xs) :
    ∃ ys, ((Exchange.init f c).run c .release (xs ++ ys)).ended =
      some (.with (.data (received c.zstd (c.sent a)))) := by
  have hb : serve c.zstd c.subs c.forceServer c.query = some (.answer (writeMessage (.answer c.queryId (c.sent a)))) :=
    (hc.serve_iff _).mpr ⟨a, ha, by omega, rfl⟩
  have hbl := (answer_overhead c.queryId (c.sent a) hc.id).2
  have I := xinv_run hf hc (P := fun a => a ≠ .expire ∧ a ≠ .giveUp) (by simp) xs (xinv_init (f := f) c .release _) h1 h2
  have hng := not_given_up c .release xs (Exchange.init f c) (by simp [Exchange.init]) h3
  cases he : ((Exchange.init f c).run c .release xs).ended with
  | some e =>
    cases e with
    | without => exact absurd he hng
    | «with» r =>
      refine ⟨[], ?_⟩
      rw [List.append_nil, he]
      obtain ⟨a', e1, e2⟩ := C107_result f hf c hc .release xs r he
      rw [ha] at e1
      cases e1
      rw [e2]
  | none =>
    obtain ⟨as, hP, hq⟩ := I.query
    obtain ⟨bs, cb, p1, l1⟩ := transfer_ends hf (query_nonempty c) hc.query_length hs as hP
    rw [← hq] at p1 l1
    -- the query arrives
    have J := xinv_run hf hc (P := fun a => a ≠ .expire ∧ a ≠ .giveUp) (by simp) (bs.map .query ++ [.serve]) I
      (by
        intro a' h'
        rcases List.mem_append.mp h' with h' | h'
        · obtain ⟨y, hy, e⟩ := List.mem_map.mp h'
          cases e
          exact ⟨(cb a' hy).1, (cb a' hy).2.1⟩
        · simp at h')
      (by
        intro a' h'
        rcases List.mem_append.mp h' with h' | h'
        · obtain ⟨y, hy, e⟩ := List.mem_map.mp h'
          cases e
        · simp at h')
    have hx : ∃ s, ((((Exchange.init f c).run c .release xs).run c .release (bs.map .query ++ [.serve])).answer = some s) ∧
        (((Exchange.init f c).run c .release xs).run c .release (bs.map .query ++ [.serve])).ended = none ∧
        (((Exchange.init f c).run c .release xs).run c .release (bs.map .query ++ [.serve])).query.phase = .ok := by
      rw [Exchange.run_append, run_query c .release bs _ (fun y hy => (cb y hy).2.2)]
      generalize (Exchange.init f c).run c .release xs = x at he I hq p1 l1
      show ∃ s, (Exchange.step c .release { x with query := x.query.run .release bs } .serve).answer = some s ∧
        (Exchange.step c .release { x with query := x.query.run .release bs } .serve).ended = none ∧
        (Exchange.step c .release { x with query := x.query.run .release bs } .serve).query.phase = .ok
      have hdata : (x.query.run .release bs).recv.transfer.data = c.query := by
        have : x.query.run .release bs = (Sys.init f c.query c.maxServer).run .release (as ++ bs) := by
          rw [run_append, hq]
        rw [this] at l1 ⊢
        exact complete_is_data hf .release (query_nonempty c) hc.query_length _ _ l1
      simp only [Exchange.step]
      cases hsv : x.served with
      | true =>
        simp only [l1, Bool.not_true, Bool.and_false, Bool.false_eq_true, if_false]
        cases hxa : x.answer with
        | none => exact absurd hb ((I.served hsv).2 hxa _)
        | some s => exact ⟨s, rfl, he, p1⟩
      | false =>
        simp only [l1, Bool.not_false, Bool.and_self, if_true, hdata, hb]
        exact ⟨_, rfl, he, p1⟩
    obtain ⟨s, hxa, hxe, hxp⟩ := hx
    obtain ⟨-, b, as2, hb2, hP2, hs2⟩ := J.answer s hxa
    have hb3 : b = writeMessage (.answer c.queryId (c.sent a)) := by
      rw [hb] at hb2; cases hb2; rfl
    subst hb3
    obtain ⟨bs2, cb2, p2, l2⟩ := transfer_ends hf (serve_answer hb) (hc.answer_length hb)
      (show (writeMessage (.answer c.queryId (c.sent a))).length ≤ c.maxClient by omega) as2 (hP2 hxe)
    rw [← hs2] at p2 l2
    obtain ⟨r1, r2, r3⟩ := run_answer c .release bs2 _ s hxa (fun y hy => (cb2 y hy).2.2)
    refine ⟨(bs.map .query ++ [.serve]) ++ bs2.map .answer ++ [.finish], ?_⟩
    rw [Exchange.run_append,
      Exchange.run_append c .release _ (bs.map XAct.query ++ [XAct.serve] ++ bs2.map XAct.answer) [XAct.finish],
      Exchange.run_append c .release _ (bs.map XAct.query ++ [XAct.serve]) (bs2.map XAct.answer)]
    generalize hg : (((Exchange.init f c).run c .release xs).run c .release (bs.map .query ++ [.serve])).run c .release
      (bs2.map .answer) = x' at r1 r2 r3
    show (x'.step c .release .finish).ended = _
    have hd2 : (s.run .release bs2).recv.transfer.data = writeMessage (.answer c.queryId (c.sent a)) := by
      have : s.run .release bs2 = (Sys.init f (writeMessage (.answer c.queryId (c.sent a))) c.maxClient).run .release
          (as2 ++ bs2) := by rw [run_append, hs2]
      rw [this] at l2 ⊢
      exact complete_is_data hf .release (serve_answer hb) (hc.answer_length hb) _ _ l2
    simp only [Exchange.step, r1, r2, hxe, r3, hxp, l2, Option.isNone_none, decide_true, Bool.and_self, if_true, hd2]
    rw [hc.result a (by omega)]

/-! ### The result is final, and comes after the query was sent -/

theorem sys_ok_stays (build : Build) {s : Sys f} (h : s.phase = .ok) (a : Act) : (s.step build a).phase = .ok := by
  cases a <;> simp only [Sys.step, h]
  · rw [if_neg (by intro e; cases e)]; exact h
  · rw [if_neg (by intro e; cases e)]; exact h
  · unfold Sys.receive
    split
    · split <;> exact h
    · exact h
  · split
    · split <;> first | rfl | exact h
    · exact h
  · split <;> first | rfl | exact h

theorem noted_ok (build : Build) {x : Exchange f} (h : x.query.phase = .ok) (s : Sys f) (a : Act) :
    (x.noted build s a).phase = .ok := by
  cases a <;> try exact h
  simp only [Exchange.noted]
  split
  · exact sys_ok_stays build h _
  · exact h

/-- C107: how a query ended does not change any more, and it ends with an answer only after all of the query was
acknowledged by the server. -/
theorem C107_final (f : Fec) (c : Setup) (build : Build) (xs ys : List XAct) :
    (∀ e, ((Exchange.init f c).run c build xs).ended = some e →
      ((Exchange.init f c).run c build (xs ++ ys)).ended = some e) ∧
    (∀ r, ((Exchange.init f c).run c build xs).ended = some (.with r) →
      ((Exchange.init f c).run c build xs).query.phase = .ok) := by
  have hstep : ∀ (x : Exchange f) a, (∀ e, x.ended = some e → (x.step c build a).ended = some e) ∧
      ((∀ r, x.ended = some (.with r) → x.query.phase = .ok) →
        ∀ r, (x.step c build a).ended = some (.with r) → (x.step c build a).query.phase = .ok) := by
    intro x a
    cases a with
    | query a =>
      have hq : (x.step c build (.query a)).ended = x.ended := by cases a <;> rfl
      refine ⟨fun e h => hq.trans h, fun h r hr => ?_⟩
      have := h r (hq ▸ hr)
      cases a <;> first | exact this | exact sys_ok_stays build this _
    | serve =>
      simp only [Exchange.step]
      split
      · exact ⟨fun e h => h, fun h r hr => h r hr⟩
      · exact ⟨fun e h => h, fun h r hr => h r hr⟩
    | answer a =>
      have hq : (x.step c build (.answer a)).ended = x.ended := by
        cases a <;> simp only [Exchange.step] <;> first | rfl | (split <;> rfl)
      refine ⟨fun e h => hq.trans h, fun h r hr => ?_⟩
      have := h r (hq ▸ hr)
      cases a <;> simp only [Exchange.step] <;> first | exact this | (split <;> first | exact noted_ok build this _ _ | exact this)
    | finish =>
      simp only [Exchange.step]
      split
      · split
        · rename_i hc
          simp only [Bool.and_eq_true, decide_eq_true_eq, Option.isNone_iff_eq_none] at hc
          refine ⟨fun e h => ?_, fun _ _ _ => hc.1.2⟩
          rw [hc.1.1] at h; cases h
        · exact ⟨fun e h => h, fun h r hr => h r hr⟩
      · exact ⟨fun e h => h, fun h r hr => h r hr⟩
    | giveUp =>
      simp only [Exchange.step]
      split
      · rename_i hc
        rw [Option.isNone_iff_eq_none] at hc
        refine ⟨fun e h => ?_, fun _ r h => ?_⟩
        · rw [hc] at h; cases h
        · cases h
      · exact ⟨fun e h => h, fun h r hr => h r hr⟩
  constructor
  · intro e h
    rw [Exchange.run_append]
    generalize (Exchange.init f c).run c build xs = x at h
    induction ys generalizing x with
    | nil => exact h
    | cons y ys ih => exact ih _ ((hstep x y).1 e h)
  · have : ∀ (x : Exchange f), (∀ r, x.ended = some (.with r) → x.query.phase = .ok) →
        ∀ r, (x.run c build xs).ended = some (.with r) → (x.run c build xs).query.phase = .ok := by
      induction xs with
      | nil => intro x h; exact h
      | cons y ys ih => intro x h; exact ih _ ((hstep x y).2 h)
    exact this _ (fun r h => by cases h)

/-! ### The hypotheses can be met -/

/-- The server doubles what it is asked. -/
def doubling : Setup :=
  ⟨Zstd.toy, [fun _ q => .consumed (some (q ++ q))], false, false, 100, 200, 7, List.replicate 32 1, [1, 0, 0, 0]⟩

theorem doubling_ok : doubling.Ok := ⟨by decide, by decide, by decide, by decide, by decide⟩

example : doubling.query.length ≤ doubling.maxServer ∧
    doubling.application = .processed (some [1, 0, 0, 0, 1, 0, 0, 0]) ∧
    (doubling.sent [1, 0, 0, 0, 1, 0, 0, 0]).length + 43 ≤ doubling.maxClient := by decide +kernel

/-- With a lost chunk of the query and a repeated one of the answer, all the way to the end. -/
example : ((Exchange.init Fec.toy doubling).run doubling .release
    [.query .begin, .query .bind, .query .chunk, .query .chunk, .query (.deliver 0), .query (.ack 0), .query .check, .query .begin, .serve,
      .answer .begin, .answer .bind, .answer .chunk, .answer (.deliver 0), .answer (.deliver 0), .finish]).ended =
    some (.with (.data [1, 0, 0, 0, 1, 0, 0, 0])) := by decide +kernel

-- C107_result, C107_asked, C107_can_finish
def doublingRun : List XAct :=
  [.query .begin, .query .bind, .query .chunk, .query .chunk, .query (.deliver 0), .query (.ack 0), .query .check, .query .begin,
    .serve, .answer .begin, .answer .bind, .answer .chunk, .answer (.deliver 0), .answer (.deliver 0), .finish]


example := C107_result Fec.toy Fec.toy_lawful doubling doubling_ok .release doublingRun
  (.data [1, 0, 0, 0, 1, 0, 0, 0]) (by decide +kernel)
example := C107_asked Fec.toy Fec.toy_lawful doubling doubling_ok .release doublingRun (by decide +kernel)
example := C107_can_finish Fec.toy Fec.toy_lawful doubling doubling_ok (by decide +kernel) [1, 0, 0, 0, 1, 0, 0, 0]
  (by decide +kernel) (by decide +kernel) [.query .begin, .query .bind, .query .chunk] (by intro a h; simp at h; rcases h with rfl | rfl | rfl <;> decide)
  (by intro a h; simp at h) (by simp)

end Verif.Rldp
