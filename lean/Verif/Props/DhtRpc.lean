import Verif.Model.DhtRpc
import Verif.Proofs.DhtProto
import Verif.Props.DhtNode
import Verif.Proofs.Encryption

/-!
# C79, C80: DHT queries from the wire
-/
namespace Verif.Dht
open Verif.Tl Verif.Address Verif.AdnlProto Verif.DhtProto Verif.Storage

variable {c : Crypto}

/-! ### Reading what was written -/

/-- Field widths of a query. -/
def Query.wf : Query → Prop
  | .ping r => r < 2 ^ 64
  | .findNode key k => key.length = 32 ∧ k < 2 ^ 32
  | .findValue key k => key.length = 32 ∧ k < 2 ^ 32
  | .getSignedAddressList => True
  | .store v => v.wf
  | .withNode n q => n.wf ∧ q.wf

/-- Number of node records before the query, plus one. -/
def Query.depth : Query → Nat
  | .withNode _ q => q.depth + 1
  | _ => 1

/-- How many of the node records are looked at: those up to the first one that `add_dht_peer` fails on. -/
def reached (o : Opts c) (e : Env c) : State c → Query → Nat
  | s, .withNode n q =>
    match addDhtPeer o e.now s n e.channelKey with
    | (_, .error) => 1
    | (s', _) => reached o e s' q + 1
  | _, _ => 1

theorem writeQuery_id (q : Query) : ∃ id rest, id < 2 ^ 32 ∧ writeQuery q = writeU32 id ++ rest := by
  cases q with
  | ping r => exact ⟨pingId, _, by decide, rfl⟩
  | findNode key k => exact ⟨findNodeId, _, by decide, rfl⟩
  | findValue key k => exact ⟨findValueId, _, by decide, rfl⟩
  | getSignedAddressList => exact ⟨getSignedId, [], by decide, by simp [writeQuery]⟩
  | store v => exact ⟨storeId, _, by decide, rfl⟩
  | withNode n q => exact ⟨dhtQueryId, _, by decide, rfl⟩

theorem readU32_write (n : Nat) (h : n < 2 ^ 32) (rest : Bytes) : readU32 (writeU32 n ++ rest) = some (n, rest) :=
  Encodes.u32 h rest

theorem readPlain_ping : readPlain pingId = readU64 >>= fun r => pure (.ping r) := if_pos rfl

theorem readPlain_findNode :
    readPlain findNodeId = readHash >>= fun key => readU32 >>= fun k => pure (.findNode key k) := by
  unfold readPlain
  rw [if_neg (by decide), if_pos rfl]

theorem readPlain_findValue :
    readPlain findValueId = readHash >>= fun key => readU32 >>= fun k => pure (.findValue key k) := by
  unfold readPlain
  rw [if_neg (by decide), if_neg (by decide), if_pos rfl]

theorem readPlain_store : readPlain storeId = readValue >>= fun v => pure (.store v) := by
  unfold readPlain
  rw [if_neg (by decide), if_neg (by decide), if_neg (by decide), if_pos rfl]

/-- One level, for a query with no node record. -/
theorem consume_plain (o : Opts c) (e : Env c) (fuel : Nat) (s : State c) (id : Nat) (body : Bytes) (q : Query)
    (rest : Bytes) (hid : id = pingId ∨ id = findNodeId ∨ id = findValueId ∨ id = storeId)
    (h : readPlain id body = some (q, rest)) :
    consume o e (fuel + 1) s (writeU32 id ++ body) = ((answerTo o e s q).1, (answerTo o e s q).2, 1) := by
  have hlt : id < 2 ^ 32 := by rcases hid with rfl | rfl | rfl | rfl <;> decide
  have h1 : id ≠ dhtQueryId := by rcases hid with rfl | rfl | rfl | rfl <;> decide
  have h2 : id ≠ getSignedId := by rcases hid with rfl | rfl | rfl | rfl <;> decide
  rw [consume, readU32_write _ hlt]
  simp only [h1, h2, if_false, hid, if_true, h]

theorem answerTo_withNode (o : Opts c) (e : Env c) (s : State c) (n : DNode) (q : Query) :
    answerTo o e s (.withNode n q) =
      match addDhtPeer o e.now s n e.channelKey with
      | (s', .error) => (s', .error)
      | (s', _) => answerTo o e s' q := by
  unfold answerTo
  simp only [handle]
  rcases addDhtPeer o e.now s n e.channelKey with ⟨s', a⟩
  cases a <;> rfl

theorem answerTo_not_rejected (o : Opts c) (e : Env c) (s : State c) (q : Query) : (answerTo o e s q).2 ≠ .rejected := by
  unfold answerTo replyOf
  simp only
  split <;> simp

/-- A query as written, possibly followed by other bytes. -/
theorem consume_write (o : Opts c) (e : Env c) (q : Query) (hq : q.wf) : ∀ (fuel : Nat) (s : State c) (rest : Bytes),
    q.depth ≤ fuel →
    consume o e fuel s (writeQuery q ++ rest) = ((answerTo o e s q).1, (answerTo o e s q).2, reached o e s q) := by
  induction q with
  | ping r =>
    intro fuel s rest hf
    simp only [Query.wf] at hq
    obtain ⟨fuel, rfl⟩ : ∃ m, fuel = m + 1 := ⟨fuel - 1, by simp [Query.depth] at hf; omega⟩
    rw [writeQuery, List.append_assoc]
    have h : Encodes (readPlain pingId) (writeU64 r) (Query.ping r) := by
      rw [readPlain_ping]
      exact Encodes.bindPure (Encodes.u64 hq) rfl
    rw [consume_plain o e fuel s pingId _ _ rest (.inl rfl) (h rest), reached]
    all_goals simp
  | findNode key k =>
    intro fuel s rest hf
    simp only [Query.wf] at hq
    obtain ⟨fuel, rfl⟩ : ∃ m, fuel = m + 1 := ⟨fuel - 1, by simp [Query.depth] at hf; omega⟩
    rw [writeQuery, List.append_assoc]
    have h : Encodes (readPlain findNodeId) ((key ++ writeU32 k)) (Query.findNode key k) := by
      rw [readPlain_findNode]
      exact Encodes.bind (Encodes.raw _ hq.1) (Encodes.bindPure (Encodes.u32 hq.2) rfl)
    rw [consume_plain o e fuel s findNodeId _ _ rest (.inr (.inl rfl)) (h rest), reached]
    all_goals simp
  | findValue key k =>
    intro fuel s rest hf
    simp only [Query.wf] at hq
    obtain ⟨fuel, rfl⟩ : ∃ m, fuel = m + 1 := ⟨fuel - 1, by simp [Query.depth] at hf; omega⟩
    rw [writeQuery, List.append_assoc]
    have h : Encodes (readPlain findValueId) ((key ++ writeU32 k)) (Query.findValue key k) := by
      rw [readPlain_findValue]
      exact Encodes.bind (Encodes.raw _ hq.1) (Encodes.bindPure (Encodes.u32 hq.2) rfl)
    rw [consume_plain o e fuel s findValueId _ _ rest (.inr (.inr (.inl rfl))) (h rest), reached]
    all_goals simp
  | getSignedAddressList =>
    intro fuel s rest hf
    obtain ⟨fuel, rfl⟩ : ∃ m, fuel = m + 1 := ⟨fuel - 1, by simp [Query.depth] at hf; omega⟩
    rw [writeQuery, consume, readU32_write _ (by decide), reached]
    · rfl
    · simp
  | store v =>
    intro fuel s rest hf
    simp only [Query.wf] at hq
    obtain ⟨fuel, rfl⟩ : ∃ m, fuel = m + 1 := ⟨fuel - 1, by simp [Query.depth] at hf; omega⟩
    rw [writeQuery, List.append_assoc]
    have h : Encodes (readPlain storeId) (writeValue v) (Query.store v) := by
      rw [readPlain_store]
      exact Encodes.bindPure (value_encodes v hq) rfl
    rw [consume_plain o e fuel s storeId _ _ rest (.inr (.inr (.inr rfl))) (h rest), reached]
    all_goals simp
  | withNode n q ih =>
    intro fuel s rest hf
    simp only [Query.wf] at hq
    obtain ⟨fuel, rfl⟩ : ∃ m, fuel = m + 1 := ⟨fuel - 1, by simp [Query.depth] at hf; omega⟩
    have hf' : q.depth ≤ fuel := by simp [Query.depth] at hf; omega
    obtain ⟨id, body, hid, hb⟩ := writeQuery_id q
    have hin : readU32 (writeQuery q ++ rest) = some (id, body ++ rest) := by
      rw [hb, List.append_assoc, readU32_write _ hid]
    rw [writeQuery, List.append_assoc, List.append_assoc, consume, readU32_write _ (by decide)]
    simp only [if_true, dnode_encodes n hq.1 (writeQuery q ++ rest), hin]
    rw [answerTo_withNode, reached]
    rcases addDhtPeer o e.now s n e.channelKey with ⟨s', a⟩
    cases a with
    | error => rfl
    | none =>
      simp only
      rw [ih hq.2 fuel s' rest hf']
      have hr := answerTo_not_rejected o e s' q
      cases hx : (answerTo o e s' q).2 with
      | rejected => exact absurd hx hr
      | answer d => rfl
      | error => rfl
    | some x =>
      simp only
      rw [ih hq.2 fuel s' rest hf']
      have hr := answerTo_not_rejected o e s' q
      cases hx : (answerTo o e s' q).2 with
      | rejected => exact absurd hx hr
      | answer d => rfl
      | error => rfl

theorem depth_le_length (q : Query) : q.depth ≤ (writeQuery q).length := by
  induction q with
  | withNode n q ih => simp only [Query.depth, writeQuery, List.length_append, writeU32_length]; omega
  | _ => simp only [Query.depth, writeQuery, List.length_append, writeU32_length]; omega

/-- **C79.** A well-formed query, serialised, does to the node exactly what the query means, and the reply is
its answer serialised; bytes after the query are not looked at. -/
theorem C79_consumes_query (o : Opts c) (e : Env c) (s : State c) (q : Query) (hq : q.wf) (rest : Bytes) :
    (consumeQuery o e s (writeQuery q ++ rest)).1 = (handle o e.order e.now e.now' e.channelKey s q).1 ∧
    (consumeQuery o e s (writeQuery q ++ rest)).2.1 =
      replyOf e (handle o e.order e.now e.now' e.channelKey s q).2 := by
  unfold consumeQuery
  rw [consume_write o e q hq _ s rest]
  · exact ⟨rfl, rfl⟩
  · have := depth_le_length q
    simp only [List.length_append]
    omega

/-! ### Every message -/

/-- What a message says, if it is a query: constructor and fields in order, each node record followed by
another query. -/
inductive Says : Bytes → Query → Prop
  | plain {data rest r : Bytes} {id : Nat} {q : Query} : readU32 data = some (id, rest) →
      readPlain id rest = some (q, r) → Says data q
  | own {data rest : Bytes} : readU32 data = some (getSignedId, rest) → Says data .getSignedAddressList
  | nested {data rest inner : Bytes} {n : DNode} {q : Query} : readU32 data = some (dhtQueryId, rest) →
      readDNode rest = some (n, inner) → Says inner q → Says data (.withNode n q)

/-- The node does with a message what it says. The budget for the recursion plays no role. -/
theorem says_consume (o : Opts c) (e : Env c) {data : Bytes} {q : Query} (h : Says data q) :
    ∀ (fuel : Nat) (s : State c), data.length ≤ 4 * fuel →
      consume o e fuel s data = ((answerTo o e s q).1, (answerTo o e s q).2, reached o e s q) := by
  induction h with
  | plain h1 h2 =>
    rename_i data rest r id q
    intro fuel s hf
    have hid : id = pingId ∨ id = findNodeId ∨ id = findValueId ∨ id = storeId := by
      unfold readPlain at h2
      by_cases e1 : id = pingId
      · exact .inl e1
      by_cases e2 : id = findNodeId
      · exact .inr (.inl e2)
      by_cases e3 : id = findValueId
      · exact .inr (.inr (.inl e3))
      by_cases e4 : id = storeId
      · exact .inr (.inr (.inr e4))
      simp only [e1, e2, e3, e4, if_false] at h2
      cases h2
    obtain ⟨w, hw, rfl, -⟩ := readU32_some h1
    obtain ⟨fuel, rfl⟩ : ∃ m, fuel = m + 1 :=
      ⟨fuel - 1, by simp only [List.length_append] at hf; omega⟩
    have n1 : id ≠ dhtQueryId := by rcases hid with rfl | rfl | rfl | rfl <;> decide
    have n2 : id ≠ getSignedId := by rcases hid with rfl | rfl | rfl | rfl <;> decide
    have hr : reached o e s q = 1 := by
      rcases hid with rfl | rfl | rfl | rfl
      · rw [readPlain_ping] at h2
        obtain ⟨x, r1, -, h3⟩ := bind_some h2
        cases h3; rfl
      · rw [readPlain_findNode] at h2
        obtain ⟨x, r1, -, h3⟩ := bind_some h2
        obtain ⟨y, r2, -, h4⟩ := bind_some h3
        cases h4; rfl
      · rw [readPlain_findValue] at h2
        obtain ⟨x, r1, -, h3⟩ := bind_some h2
        obtain ⟨y, r2, -, h4⟩ := bind_some h3
        cases h4; rfl
      · rw [readPlain_store] at h2
        obtain ⟨x, r1, -, h3⟩ := bind_some h2
        cases h3; rfl
    rw [consume, h1]
    simp only [n1, n2, if_false, hid, if_true, h2, hr]
  | own h1 =>
    intro fuel s hf
    obtain ⟨w, hw, rfl, -⟩ := readU32_some h1
    obtain ⟨fuel, rfl⟩ : ∃ m, fuel = m + 1 :=
      ⟨fuel - 1, by simp only [List.length_append] at hf; omega⟩
    rw [consume, h1]
    rfl
  | nested h1 h2 h3 ih =>
    rename_i data rest inner n q
    intro fuel s hf
    obtain ⟨w, hw, rfl, -⟩ := readU32_some h1
    obtain ⟨fuel, rfl⟩ : ∃ m, fuel = m + 1 :=
      ⟨fuel - 1, by simp only [List.length_append] at hf; omega⟩
    have hl : inner.length ≤ 4 * fuel := by
      have : inner.length ≤ rest.length := by
        obtain ⟨a, r1, h4, h5⟩ := bind_some h2
        obtain ⟨b, r2, h6, h7⟩ := bind_some h5
        obtain ⟨x, r3, h8, h9⟩ := bind_some h7
        obtain ⟨y, r4, h10, h11⟩ := bind_some h9
        cases h11
        obtain ⟨_, rfl, -⟩ := readPubKey_local _ _ _ h4
        obtain ⟨_, rfl, -⟩ := readAddrList_local _ _ _ h6
        obtain ⟨_, rfl, -⟩ := Local.u32 _ _ _ h8
        obtain ⟨_, rfl, -⟩ := Local.bytes _ _ _ h10
        simp only [List.length_append]; omega
      simp only [List.length_append] at hf; omega
    have hin : ∃ id body, readU32 inner = some (id, body) := by
      cases h3 with
      | plain h _ => exact ⟨_, _, h⟩
      | own h => exact ⟨_, _, h⟩
      | nested h _ _ => exact ⟨_, _, h⟩
    obtain ⟨id, body, hin⟩ := hin
    rw [consume, h1]
    simp only [if_true, h2, hin]
    rw [answerTo_withNode, reached]
    rcases addDhtPeer o e.now s n e.channelKey with ⟨s', a⟩
    cases a with
    | error => rfl
    | none =>
      simp only
      rw [ih fuel s' hl]
      have hr := answerTo_not_rejected o e s' q
      cases hx : (answerTo o e s' q).2 with
      | rejected => exact absurd hx hr
      | answer d => rfl
      | error => rfl
    | some x =>
      simp only
      rw [ih fuel s' hl]
      have hr := answerTo_not_rejected o e s' q
      cases hx : (answerTo o e s' q).2 with
      | rejected => exact absurd hx hr
      | answer d => rfl
      | error => rfl

/-- **C79.** Every message that says a query has its effect and gets its answer, however it is encoded. -/
theorem C79_does_what_it_says (o : Opts c) (e : Env c) (s : State c) (data : Bytes) (q : Query) (h : Says data q) :
    (consumeQuery o e s data).1 = (handle o e.order e.now e.now' e.channelKey s q).1 ∧
    (consumeQuery o e s data).2.1 = replyOf e (handle o e.order e.now e.now' e.channelKey s q).2 := by
  unfold consumeQuery
  rw [says_consume o e h _ s (by omega)]
  exact ⟨rfl, rfl⟩

/-- The node records a message that says no query begins with are added all the same, up to the first error. -/
inductive Adds (o : Opts c) (e : Env c) : State c → State c → Prop
  | none {s : State c} : Adds o e s s
  | add {s s' s'' : State c} {n : DNode} {r : AddedPeer} : addDhtPeer o e.now s n e.channelKey = (s', r) →
      Adds o e s' s'' → Adds o e s s''

theorem consume_other (o : Opts c) (e : Env c) : ∀ (fuel : Nat) (s : State c) (data : Bytes),
    (∀ q, ¬ Says data q) → Adds o e s (consume o e fuel s data).1 ∧
      ∀ a, (consume o e fuel s data).2.1 ≠ .answer a := by
  intro fuel
  induction fuel with
  | zero => intro s data _; exact ⟨.none, by intro a h; cases h⟩
  | succ fuel ih =>
    intro s data hno
    rw [consume]
    cases h1 : readU32 data with
    | none => exact ⟨.none, by intro a h; cases h⟩
    | some p =>
      obtain ⟨id, rest⟩ := p
      simp only
      by_cases hq : id = dhtQueryId
      · subst hq
        rw [if_pos rfl]
        cases h2 : readDNode rest with
        | none => exact ⟨.none, by intro a h; cases h⟩
        | some p =>
          obtain ⟨n, inner⟩ := p
          simp only
          cases h3 : readU32 inner with
          | none => exact ⟨.none, by intro a h; cases h⟩
          | some p =>
            simp only
            have hno' : ∀ q, ¬ Says inner q := fun q hs => hno _ (.nested h1 h2 hs)
            rcases h4 : addDhtPeer o e.now s n e.channelKey with ⟨s', r⟩
            obtain ⟨hadds, hans⟩ := ih s' inner hno'
            cases r with
            | error => exact ⟨.add h4 .none, by intro a h; cases h⟩
            | none =>
              simp only
              rcases h5 : consume o e fuel s' inner with ⟨s'', rep, d⟩
              rw [h5] at hadds hans
              cases rep with
              | rejected => exact ⟨.add h4 hadds, by intro a h; cases h⟩
              | error => exact ⟨.add h4 hadds, by intro a h; cases h⟩
              | answer a => exact absurd rfl (hans a)
            | some x =>
              simp only
              rcases h5 : consume o e fuel s' inner with ⟨s'', rep, d⟩
              rw [h5] at hadds hans
              cases rep with
              | rejected => exact ⟨.add h4 hadds, by intro a h; cases h⟩
              | error => exact ⟨.add h4 hadds, by intro a h; cases h⟩
              | answer a => exact absurd rfl (hans a)
      · rw [if_neg hq]
        by_cases hg : id = getSignedId
        · subst hg
          exact absurd (.own h1) (hno _)
        · rw [if_neg hg]
          split
          · cases h2 : readPlain id rest with
            | none => exact ⟨.none, by intro a h; cases h⟩
            | some p => exact absurd (.plain h1 h2) (hno p.1)
          · exact ⟨.none, by intro a h; cases h⟩

/-- **C79.** A message that says no query is not answered, and changes nothing but that the node records it
begins with may be added; stored values stay as they are. -/
theorem C79_nothing_else (o : Opts c) (e : Env c) (s : State c) (data : Bytes) (h : ∀ q, ¬ Says data q) :
    Adds o e s (consumeQuery o e s data).1 ∧ (∀ a, (consumeQuery o e s data).2.1 ≠ .answer a) ∧
      (consumeQuery o e s data).1.storage = s.storage := by
  obtain ⟨h1, h2⟩ := consume_other o e data.length s data h
  refine ⟨h1, h2, ?_⟩
  change (consume o e data.length s data).1.storage = s.storage
  generalize (consume o e data.length s data).1 = s' at h1
  clear h2 h
  induction h1 with
  | none => rfl
  | add h4 _ ih =>
    rw [ih]
    unfold addDhtPeer at h4
    split at h4
    · cases h4; rfl
    · split at h4
      · cases h4; rfl
      · split at h4
        · split at h4
          · cases h4; rfl
          · cases h4; rfl
          · split at h4 <;> cases h4 <;> rfl
        · cases h4; rfl

/-- **C79.** A message is left to the other subscribers exactly when its own constructor is not one of the
six; one whose inner query is unknown is an error. -/
theorem C79_rejected_iff (o : Opts c) (e : Env c) (s : State c) (data : Bytes) :
    (consumeQuery o e s data).2.1 = .rejected ↔ ∃ id rest, readU32 data = some (id, rest) ∧
      id ∉ [pingId, findNodeId, findValueId, getSignedId, storeId, dhtQueryId] := by
  unfold consumeQuery
  cases h1 : readU32 data with
  | none =>
    constructor
    · intro h
      cases hl : data.length with
      | zero => rw [hl, consume] at h; cases h
      | succ n => rw [hl, consume, h1] at h; cases h
    · rintro ⟨_, _, h, _⟩; cases h
  | some p =>
    obtain ⟨id, rest⟩ := p
    obtain ⟨w, hw, rfl, -⟩ := readU32_some h1
    obtain ⟨n, hn⟩ : ∃ n, (w ++ rest).length = n + 1 := ⟨(w ++ rest).length - 1, by simp; omega⟩
    rw [hn, consume, h1]
    simp only
    have key : (∃ id' rest', some (id, rest) = some (id', rest') ∧
        id' ∉ [pingId, findNodeId, findValueId, getSignedId, storeId, dhtQueryId]) ↔
        id ∉ [pingId, findNodeId, findValueId, getSignedId, storeId, dhtQueryId] := by
      constructor
      · rintro ⟨_, _, h, h'⟩; cases h; exact h'
      · intro h; exact ⟨_, _, rfl, h⟩
    rw [key]
    by_cases hq : id = dhtQueryId
    · rw [if_pos hq]
      constructor
      · intro h
        exfalso
        revert h
        cases readDNode rest with
        | none => simp
        | some p =>
          simp only
          cases readU32 p.2 with
          | none => simp
          | some _ =>
            simp only
            rcases addDhtPeer o e.now s p.1 e.channelKey with ⟨s', r⟩
            cases r with
            | error => simp
            | none =>
              simp only
              rcases consume o e n s' p.2 with ⟨s'', rep, d⟩
              cases rep <;> simp
            | some x =>
              simp only
              rcases consume o e n s' p.2 with ⟨s'', rep, d⟩
              cases rep <;> simp
      · intro h; simp [hq] at h
    · rw [if_neg hq]
      by_cases hg : id = getSignedId
      · rw [if_pos hg]; simp [hg]
      · rw [if_neg hg]
        split
        · rename_i hid
          constructor
          · intro h
            exfalso
            revert h
            split
            · simp
            · exact answerTo_not_rejected o e s _
          · intro h
            simp only [List.mem_cons, List.not_mem_nil, or_false, not_or] at h
            rcases hid with rfl | rfl | rfl | rfl <;> simp_all
        · rename_i hid
          simp only [true_iff, List.mem_cons, List.not_mem_nil, or_false, not_or] at hid ⊢
          exact ⟨hid.1, hid.2.1, hid.2.2.1, hg, hid.2.2.2, hq⟩

/-! ### How deep one message makes the node recurse -/

/-- The property: the recursion of the handler has a bound that does not depend on the message. -/
def C80_full : Prop :=
  ∀ (c : Crypto), c.Lawful → ∃ bound, ∀ (o : Opts c) (e : Env c) (s : State c) (data : Bytes),
    (consumeQuery o e s data).2.2 ≤ bound

/-- A node record with a key, and no signature at all. -/
def unsigned (key : Bytes) : DNode := ⟨.ed25519 key, ⟨none, 0, 0, 0⟩, 0, []⟩

/-- The record `n` times before a query. -/
def wrap (key : Bytes) : Nat → Query
  | 0 => .getSignedAddressList
  | n + 1 => .withNode (unsigned key) (wrap key n)

theorem wrap_length (key : Bytes) (h : key.length = 32) (n : Nat) : (writeQuery (wrap key n)).length = 68 * n + 4 := by
  induction n with
  | zero => rfl
  | succ n ih =>
    have hd : (writeDNode (unsigned key)).length = 64 := by
      simp only [writeDNode, unsigned, writePubKey, writeAddrList, writeOpt, List.length_append, writeU32_length, h]
      rfl
    simp only [wrap, writeQuery, List.length_append, writeU32_length, ih, hd]
    omega

theorem wrap_wf (key : Bytes) (h : key.length = 32) (n : Nat) : (wrap key n).wf := by
  induction n with
  | zero => trivial
  | succ n ih =>
    have h1 : addrListWf ⟨none, 0, 0, 0⟩ := ⟨(by intro a ha; cases ha), by decide, by decide, by decide⟩
    have h2 : (0 : Nat) < 2 ^ 32 := by decide
    have h3 : ([] : Bytes).length < 2 ^ 24 := by decide
    exact ⟨⟨h, h1, h2, h3⟩, ih⟩

theorem add_unsigned (o : Opts c) (hc : c.Lawful) (now : Nat) (s : State c) (p : c.Pub) (channelKey : c.Sec) :
    addDhtPeer o now s (unsigned (c.pubBytes p)) channelKey = (s, .none) := by
  unfold addDhtPeer unsigned
  simp only [Receiver.fullId, hc.decode_pub]
  rw [if_pos]
  simp [verifySig]

theorem wrap_run (o : Opts c) (hc : c.Lawful) (e : Env c) (s : State c) (p : c.Pub) (n : Nat) :
    answerTo o e s (wrap (c.pubBytes p) n) = (s, .answer (writeDNodeBoxed e.own)) ∧
      reached o e s (wrap (c.pubBytes p) n) = n + 1 := by
  induction n with
  | zero => exact ⟨rfl, rfl⟩
  | succ n ih =>
    rw [wrap, answerTo_withNode, reached, add_unsigned o hc]
    exact ⟨ih.1, congrArg (· + 1) ih.2⟩

/-- **C80.** A message of `68 n + 4` bytes, which needs no valid signature, makes any node recurse `n + 1` times,
and gets an answer. -/
theorem C80_depth_reached (hc : c.Lawful) (o : Opts c) (e : Env c) (s : State c) (p : c.Pub) (n : Nat) :
    ∃ data, data.length = 68 * n + 4 ∧
      consumeQuery o e s data = (s, .answer (writeDNodeBoxed e.own), n + 1) := by
  refine ⟨writeQuery (wrap (c.pubBytes p) n), wrap_length _ (hc.pub_length p) n, ?_⟩
  have h := consume_write o e (wrap (c.pubBytes p) n) (wrap_wf _ (hc.pub_length p) n)
    (writeQuery (wrap (c.pubBytes p) n)).length s [] (depth_le_length _)
  rw [List.append_nil, (wrap_run o hc e s p n).1, (wrap_run o hc e s p n).2] at h
  exact h

/-- **C80, partial.** There is no such bound. -/
theorem C80_full_false : ¬ C80_full := by
  intro h
  obtain ⟨bound, hb⟩ := h Crypto.toy Crypto.toy_lawful
  let e : Env Crypto.toy := ⟨0, 0, id, (0 : UInt8), unsigned []⟩
  obtain ⟨data, -, hd⟩ := C80_depth_reached Crypto.toy_lawful Example.o e Example.s0 (0 : UInt8) bound
  have := hb Example.o e Example.s0 data
  rw [hd] at this
  exact absurd this (by simp)

theorem readBytes_consumes {b r d : Bytes} (h : readBytes b = some (d, r)) : r.length + 4 ≤ b.length := by
  unfold readBytes at h
  obtain ⟨x, r1, h1, h2⟩ := bind_some h
  obtain ⟨l1, e1, rfl⟩ := readRaw_some h1
  split at h2
  · obtain ⟨l, r2, h3, h4⟩ := bind_some h2
    obtain ⟨d', r3, h5, h6⟩ := bind_some h4
    obtain ⟨_, r4, h7, h8⟩ := bind_some h6
    cases h8
    obtain ⟨l3, -, rfl⟩ := readRaw_some h3
    obtain ⟨l5, -, rfl⟩ := readRaw_some h5
    obtain ⟨l7, -, rfl⟩ := readRaw_some h7
    simp only [List.length_drop] at *
    omega
  · obtain ⟨d', r3, h5, h6⟩ := bind_some h2
    obtain ⟨_, r4, h7, h8⟩ := bind_some h6
    cases h8
    obtain ⟨l5, -, rfl⟩ := readRaw_some h5
    obtain ⟨l7, -, rfl⟩ := readRaw_some h7
    simp only [List.length_drop] at *
    unfold padding at *
    omega

theorem readU32_consumes {b r : Bytes} {n : Nat} (h : readU32 b = some (n, r)) : b.length = r.length + 4 := by
  obtain ⟨w, hw, rfl, -⟩ := readU32_some h
  simp only [List.length_append]; omega

theorem readPubKey_consumes {b r k : Bytes} (h : readPubKey b = some (.ed25519 k, r)) : b.length = r.length + 36 := by
  unfold readPubKey at h
  obtain ⟨id, r1, h1, h2⟩ := bind_some h
  have l1 := readU32_consumes h1
  split at h2
  · obtain ⟨x, r2, h3, h4⟩ := bind_some h2
    cases h4
    obtain ⟨l, -, rfl⟩ := readRaw_some h3
    simp only [List.length_drop]; omega
  · split at h2
    · obtain ⟨x, r2, h3, h4⟩ := bind_some h2
      cases h4
    · split at h2
      · obtain ⟨x, r2, h3, h4⟩ := bind_some h2
        cases h4
      · split at h2
        · obtain ⟨x, r2, h3, h4⟩ := bind_some h2
          cases h4
        · cases h2

theorem readAddrList_consumes {b r : Bytes} {l : AddrList} (h : readAddrList b = some (l, r)) :
    r.length + 20 ≤ b.length := by
  unfold readAddrList at h
  obtain ⟨n, r1, h1, h2⟩ := bind_some h
  obtain ⟨addrs, r2, h3, h4⟩ := bind_some h2
  obtain ⟨x1, r3, h5, h6⟩ := bind_some h4
  obtain ⟨x2, r4, h7, h8⟩ := bind_some h6
  obtain ⟨x3, r5, h9, h10⟩ := bind_some h8
  obtain ⟨x4, r6, h11, h12⟩ := bind_some h10
  cases h12
  have l1 := readU32_consumes h1
  obtain ⟨w, rfl, -⟩ := Local.readN readAddr_local n _ _ _ h3
  have l5 := readU32_consumes h5
  have l7 := readU32_consumes h7
  have l9 := readU32_consumes h9
  have l11 := readU32_consumes h11
  simp only [List.length_append] at *
  omega

theorem readDNode_consumes {b r : Bytes} {n : DNode} (h : readDNode b = some (n, r)) {k : Bytes}
    (hk : n.id = .ed25519 k) : r.length + 64 ≤ b.length := by
  unfold readDNode at h
  obtain ⟨x1, r1, h1, h2⟩ := bind_some h
  obtain ⟨x2, r2, h3, h4⟩ := bind_some h2
  obtain ⟨x3, r3, h5, h6⟩ := bind_some h4
  obtain ⟨x4, r4, h7, h8⟩ := bind_some h6
  cases h8
  cases hk
  have l1 := readPubKey_consumes h1
  have l3 := readAddrList_consumes h3
  have l5 := readU32_consumes h5
  have l7 := readBytes_consumes h7
  omega

theorem add_ok_key (o : Opts c) (now : Nat) (s s' : State c) (n : DNode) (channelKey : c.Sec) (r : AddedPeer)
    (h : addDhtPeer o now s n channelKey = (s', r)) (hr : r ≠ .error) : ∃ k, n.id = .ed25519 k := by
  cases hn : n.id with
  | ed25519 k => exact ⟨k, rfl⟩
  | _ =>
    unfold addDhtPeer at h
    rw [hn] at h
    cases h
    exact absurd rfl hr

theorem consume_depth (o : Opts c) (e : Env c) : ∀ (fuel : Nat) (s : State c) (data : Bytes),
    (consume o e fuel s data).2.2 = 0 ∨ 68 * ((consume o e fuel s data).2.2 - 1) + 4 ≤ data.length := by
  intro fuel
  induction fuel with
  | zero => intro s data; exact .inl rfl
  | succ fuel ih =>
    intro s data
    rw [consume]
    cases h1 : readU32 data with
    | none => exact .inl rfl
    | some p =>
      obtain ⟨id, rest⟩ := p
      have l1 := readU32_consumes h1
      simp only
      split
      · cases h2 : readDNode rest with
        | none => right; simp only; omega
        | some p =>
          obtain ⟨n, inner⟩ := p
          simp only
          cases h3 : readU32 inner with
          | none => right; simp only; omega
          | some p =>
            simp only
            rcases h4 : addDhtPeer o e.now s n e.channelKey with ⟨s', r⟩
            have hi := ih s' inner
            have l3 := readU32_consumes h3
            cases r with
            | error => right; simp only; omega
            | none =>
              obtain ⟨k, hk⟩ := add_ok_key o e.now s s' n e.channelKey _ h4 (by simp)
              have l2 := readDNode_consumes h2 hk
              simp only
              rcases h5 : consume o e fuel s' inner with ⟨s'', rep, d⟩
              rw [h5] at hi
              simp only at hi
              right
              cases rep <;> simp only <;> omega
            | some x =>
              obtain ⟨k, hk⟩ := add_ok_key o e.now s s' n e.channelKey _ h4 (by simp)
              have l2 := readDNode_consumes h2 hk
              simp only
              rcases h5 : consume o e fuel s' inner with ⟨s'', rep, d⟩
              rw [h5] at hi
              simp only at hi
              right
              cases rep <;> simp only <;> omega
      · split
        · right; simp only; omega
        · split
          · cases readPlain id rest with
            | none => right; simp only; omega
            | some q => right; simp only; omega
          · right; simp only; omega

/-- **C80, partial.** The bound there is: one level for every 68 bytes, which `C80_depth_reached` attains. -/
theorem C80_depth_partial (o : Opts c) (e : Env c) (s : State c) (data : Bytes) :
    (consumeQuery o e s data).2.2 ≤ (data.length + 64) / 68 := by
  have h := consume_depth o e data.length s data
  unfold consumeQuery
  omega

/-! ### The hypotheses are met -/

/-- The clock, the order of nodes, and a record of the own node. -/
def Example.env : Env Example.T := ⟨1000, 1000, id, (7 : UInt8), Example.node 100 1⟩

/-- A query with a signed record: the sender is learned, and is among the nodes in the answer. -/
example : (consumeQuery Example.o Example.env Example.s0
    (writeQuery (.withNode (Example.node 1 1) (.findNode (Node.shortId Example.T (1 : UInt8)) 3)))).2.1 =
    .answer (writeDNodes [Example.node 1 1]) := by decide +kernel

theorem Example.query_wf : Query.wf (.withNode (Example.node 1 1) (.findNode (Node.shortId Example.T (1 : UInt8)) 3)) := by
  refine ⟨⟨?_, ⟨?_, ?_, ?_, ?_⟩, ?_, ?_⟩, ?_, ?_⟩
  · show (Example.T.pubBytes (1 : UInt8)).length = 32
    decide +kernel
  · intro a ha
    cases ha
    decide
  all_goals decide +kernel

/-- A list with two addresses is no encoding of ours, but it says a query all the same. -/
example : ∃ n, Says (writeU32 dhtQueryId ++ (writeU32 0x4813b4c6 ++ List.replicate 32 1 ++ writeU32 2 ++
    writeAddr ⟨1, 2⟩ ++ writeAddr ⟨3, 4⟩ ++ writeU32 0 ++ writeU32 0 ++ writeU32 0 ++ writeU32 0 ++ writeU32 5 ++
    writeBytes [] ++ writeQuery (.ping 6))) (.withNode n (.ping 6)) := by
  refine ⟨_, .nested (readU32_write _ (by decide) _) (n := ⟨.ed25519 (List.replicate 32 1), ⟨some ⟨1, 2⟩, 0, 0, 0⟩, 5, []⟩)
    (inner := writeQuery (.ping 6)) (by decide +kernel) (.plain (readU32_write _ (by decide) _) (r := []) ?_)⟩
  rw [readPlain_ping]
  rfl

/-- A ping after a record that is cut off says nothing. -/
theorem Example.says_nothing : ∀ q, ¬ Says (writeU32 dhtQueryId ++ List.replicate 3 1) q := by
  intro q h
  cases h with
  | plain h1 h2 =>
    rw [readU32_write _ (by decide)] at h1
    cases h1
    cases h2
  | own h1 =>
    rw [readU32_write _ (by decide)] at h1
    simp [dhtQueryId, getSignedId] at h1
  | nested h1 h2 h3 =>
    rw [readU32_write _ (by decide)] at h1
    cases h1
    exact absurd h2 (by rw [show readDNode (List.replicate 3 1) = none from by decide +kernel]; simp)

/-- An overlay query is left to others. -/
example : (consumeQuery Example.o Example.env Example.s0 (writeU32 0xccfd8443 ++ List.replicate 32 1)).2.1 = .rejected :=
  (C79_rejected_iff _ _ _ _).2 ⟨_, _, readU32_write 0xccfd8443 (by decide) _, by decide⟩

-- C79_consumes_query, with bytes after the query
example := C79_consumes_query Example.o Example.env Example.s0 _ Example.query_wf [1, 2, 3]

-- C79_does_what_it_says: a ping after such a record, with five bytes too many
example := C79_does_what_it_says Example.o Example.env Example.s0 (writeQuery (.ping 6) ++ [1, 2, 3, 4, 5]) (.ping 6)
  (.plain (id := 0xcbeb3f18) (rest := writeU64 6 ++ [1, 2, 3, 4, 5]) (r := [1, 2, 3, 4, 5]) (by decide +kernel) (by rfl))

-- C79_nothing_else: a record that ends too early
example := C79_nothing_else Example.o Example.env Example.s0 _ Example.says_nothing

-- C80_depth_reached
example := C80_depth_reached Crypto.toy_lawful Example.o Example.env Example.s0 (7 : UInt8) 1000

end Verif.Dht
