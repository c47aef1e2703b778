import Verif.Model.Ping
import Verif.Proofs.Tl
import Verif.Props.Dispatch
import Verif.Props.DhtRpc
import Verif.Props.Scheme

/-!
# C98: pings are answered
-/
namespace Verif.Ping
open Verif.Tl Verif.Dispatch

theorem readBoxedU64_write {id v : Nat} (hid : id < 2 ^ 32) (hv : v < 2 ^ 64) (rest : Bytes) :
    readBoxedU64 id (writeU32 id ++ writeU64 v ++ rest) = some (v, rest) := by
  have : Encodes (readBoxedU64 id) (writeU32 id ++ writeU64 v) v := by
    refine Encodes.bind (Encodes.u32 hid) ?_
    rw [if_pos rfl]
    exact Encodes.u64 hv
  exact this rest

theorem readBoxedU64_some {id v : Nat} {b rest : Bytes} (h : readBoxedU64 id b = some (v, rest)) :
    v < 2 ^ 64 ∧ b = writeU32 id ++ writeU64 v ++ rest := by
  obtain ⟨i, r, h1, h2⟩ := bind_some h
  obtain ⟨w, w1, rfl, w3⟩ := readU32_some h1
  split at h2
  · next hi =>
    obtain ⟨x, r', h3, h4⟩ := bind_some h2
    obtain ⟨e1, e2, e3⟩ := readRaw_some h3
    cases h4
    have hx : x.length = 8 := by rw [e2, List.length_take]; omega
    refine ⟨by have := ofLE_lt x; rw [hx] at this; exact this, ?_⟩
    unfold writeU32 writeU64
    rw [← hi, w3, ← w1, leBytes_ofLE, ← hx, leBytes_ofLE, e2, e3, List.append_assoc, List.take_append_drop]
  · cases h2

theorem readConstructor_write {id : Nat} (hid : id < 2 ^ 32) (rest : Bytes) :
    readConstructor (writeU32 id ++ rest) = some id := by
  unfold readConstructor
  rw [if_neg (by simp [writeU32]), List.take_left' (by simp [writeU32]), writeU32, ofLE_leBytes_of_lt (by simpa using hid)]

theorem queryLoop_append (k : Nat) (last : QuerySub) (subs : List QuerySub) : ∀ (i : Nat) (q : Bytes),
    (queryLoop k i (subs ++ [last]) q).1 =
      match (queryLoop k i subs q).1 with
      | .rejected => (queryLoop k i (subs ++ [last]) q).1
      | r => r := by
  induction subs with
  | nil => intro i q; rfl
  | cons s subs ih =>
    intro i q
    rw [List.cons_append, queryLoop, queryLoop]
    cases hs : s k q with
    | error => rfl
    | consumed a => rfl
    | rejected q' => exact ih (i + 1) q'

/-- **C98.** A running node answers a ping with the same value, unless another subscriber takes it. -/
theorem C98_answered (added : List QuerySub) (v : Nat) (hv : v < 2 ^ 64) (rest : Bytes)
    (hrej : ∀ s ∈ added, s adnlPingId (writeAdnlPing v ++ rest) = .rejected (writeAdnlPing v ++ rest)) :
    queryEffect (nodeSubs added) (writeAdnlPing v ++ rest) = .sendAnswer (writeAdnlPong v) := by
  have hloop : ∀ (added : List QuerySub) i, (∀ s ∈ added, s adnlPingId (writeAdnlPing v ++ rest) = .rejected (writeAdnlPing v ++ rest)) →
      (queryLoop adnlPingId i (added ++ [pingSub]) (writeAdnlPing v ++ rest)).1 = .processed (some (writeAdnlPong v)) := by
    intro added
    induction added with
    | nil =>
      intro i _
      rw [List.nil_append, queryLoop]
      have : pingSub adnlPingId (writeAdnlPing v ++ rest) = .consumed (some (writeAdnlPong v)) := by
        unfold pingSub
        rw [if_pos rfl, writeAdnlPing, readBoxedU64_write (by decide) hv]
      rw [this]
    | cons s added ih =>
      intro i h
      rw [List.cons_append, queryLoop, h s (by simp)]
      exact ih (i + 1) fun s hs => h s (by simp [hs])
  unfold queryEffect processQuery nodeSubs
  rw [show readConstructor (writeAdnlPing v ++ rest) = some adnlPingId by
    rw [writeAdnlPing, List.append_assoc]; exact readConstructor_write (by decide) _]
  simp only
  rw [hloop added 0 hrej]

example : queryEffect (nodeSubs [fun _ q => .rejected q]) (writeAdnlPing 7) = .sendAnswer (writeAdnlPong 7) := by
  have := C98_answered [fun _ q => .rejected q] 7 (by decide) [] (by simp)
  rwa [List.append_nil] at this

/-- **C98.** Other queries are not touched by the ping subscriber, nor are pings that another subscriber takes. -/
theorem C98_nothing_else (added : List QuerySub) (q : Bytes)
    (h : readConstructor q ≠ some adnlPingId ∨ (processQuery added q).1 ≠ .rejected) :
    queryEffect (nodeSubs added) q = queryEffect added q := by
  unfold queryEffect
  suffices (processQuery (nodeSubs added) q).1 = (processQuery added q).1 by rw [this]
  unfold processQuery nodeSubs at *
  cases hc : readConstructor q with
  | none => rfl
  | some k =>
    rw [hc] at h
    simp only at h ⊢
    have key : ∀ (added : List QuerySub) i q, k ≠ adnlPingId →
        (queryLoop k i (added ++ [pingSub]) q).1 = (queryLoop k i added q).1 := by
      intro added
      induction added with
      | nil =>
        intro i q hk
        simp only [List.nil_append, queryLoop, pingSub, if_neg hk]
      | cons s added ih =>
        intro i q hk
        rw [List.cons_append, queryLoop, queryLoop]
        cases hs : s k q with
        | error => rfl
        | consumed a => rfl
        | rejected q' => exact ih (i + 1) q' hk
    rcases h with h | h
    · exact key added 0 q (fun e => h (by rw [e]))
    · rw [queryLoop_append]
      split
      · next e => exact absurd e h
      · rfl

example : queryEffect (nodeSubs [fun _ _ => .consumed (some [1])]) (writeAdnlPing 7) = .sendAnswer [1] := by
  rw [C98_nothing_else _ _ (.inr (by decide))]
  decide

/-- **C98.** `ping` of a DHT node is successful exactly if the answer is a pong with the id that was sent; bytes
after it are ignored. -/
theorem C98_dht_true_iff (r : Nat) (hr : r < 2 ^ 64) (answer : Option Bytes) :
    dhtPing r answer = some true ↔ ∃ rest, answer = some (Dht.writePong r ++ rest) := by
  constructor
  · intro h
    cases answer with
    | none => cases h
    | some a =>
      unfold dhtPing at h
      cases hb : readBoxedU64 0x5a8aef81 a with
      | none => simp only [hb] at h; cases h
      | some x =>
        obtain ⟨v, rest⟩ := x
        simp only [hb, Option.some.injEq, decide_eq_true_eq] at h
        subst h
        exact ⟨rest, by rw [(readBoxedU64_some hb).2]; rfl⟩
  · rintro ⟨rest, rfl⟩
    unfold dhtPing Dht.writePong
    simp only
    rw [readBoxedU64_write (by decide) hr]
    simp

/-- **C98.** A DHT node in any state answers a ping so that `ping` of the asking node is successful, and changes
nothing. -/
theorem C98_dht_answers {c : Crypto} (o : Dht.Opts c) (e : Dht.Env c) (s : Dht.State c) (r : Nat) (hr : r < 2 ^ 64) :
    (Dht.consumeQuery o e s (Dht.writeQuery (.ping r))).1 = s ∧
      ∃ a, (Dht.consumeQuery o e s (Dht.writeQuery (.ping r))).2.1 = .answer a ∧ dhtPing r (some a) = some true := by
  have := Dht.C79_consumes_query o e s (.ping r) hr []
  rw [List.append_nil] at this
  exact ⟨this.1, Dht.writePong r, this.2, (C98_dht_true_iff r hr _).2 ⟨[], by simp⟩⟩

example : dhtPing 7 (some (Dht.writePong 7)) = some true := (C98_dht_true_iff 7 (by decide) _).2 ⟨[], by simp⟩

/-- **C98.** A ping that is cut off is an error, and no answer is sent. -/
theorem C98_malformed (added : List QuerySub) (q : Bytes) (hc : readConstructor q = some adnlPingId)
    (hl : q.length < 12) (hrej : ∀ s ∈ added, s adnlPingId q = .rejected q) :
    (processQuery (nodeSubs added) q).1 = .error := by
  have hloop : ∀ (added : List QuerySub) i, (∀ s ∈ added, s adnlPingId q = .rejected q) →
      (queryLoop adnlPingId i (added ++ [pingSub]) q).1 = .error := by
    intro added
    induction added with
    | nil =>
      intro i _
      rw [List.nil_append, queryLoop]
      have : pingSub adnlPingId q = .error := by
        unfold pingSub
        rw [if_pos rfl]
        cases hr : readBoxedU64 adnlPingId q with
        | none => rfl
        | some x =>
          obtain ⟨v, rest⟩ := x
          obtain ⟨_, rfl⟩ := readBoxedU64_some hr
          simp [writeU32, writeU64] at hl
          omega
      rw [this]
    | cons s added ih =>
      intro i h
      rw [List.cons_append, queryLoop, h s (by simp)]
      exact ih (i + 1) fun s hs => h s (by simp [hs])
  unfold processQuery nodeSubs
  rw [hc]
  exact hloop added 0 hrej

example : (processQuery (nodeSubs [fun _ q => .rejected q]) (writeU32 adnlPingId ++ [1, 2, 3])).1 = .error :=
  C98_malformed _ _ (by decide) (by decide) (by simp)

/-- **C98.** Ping and pong are those of the scheme. -/
theorem C98_wire (v : Nat) (hv : v < 2 ^ 64) :
    Spec.Scheme.writeCall tl!"adnl.ping" [(tl!"value", .num v)] = some (writeAdnlPing v) ∧
    Spec.Scheme.write (.obj tl!"adnl.pong" [(tl!"value", .num v)]) (.boxed tl!"adnl.Pong") = some (writeAdnlPong v) := by
  have h1 : Spec.Scheme.find tl!"adnl.ping" = some ⟨0x1faaa1bf, [(tl!"value", .long)], tl!"adnl.Pong"⟩ := by decide +kernel
  have h2 : Spec.Scheme.find tl!"adnl.pong" = some ⟨0x20747c0e, [(tl!"value", .long)], tl!"adnl.Pong"⟩ := by decide +kernel
  exact ⟨Spec.Scheme.call_plain h1 (by simp) (.last (Spec.Scheme.write_long _ hv)),
    Spec.Scheme.boxed_plain h2 (by simp) (.last (Spec.Scheme.write_long _ hv))⟩

example : (Spec.Scheme.writeCall tl!"adnl.ping" [(tl!"value", .num 7)]).isSome = true := by
  rw [(C98_wire 7 (by decide)).1]; rfl

end Verif.Ping
