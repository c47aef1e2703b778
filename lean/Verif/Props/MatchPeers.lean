import Verif.Model.MatchPeers
import Verif.Proofs.AMap
import Verif.Props.Discover
import Verif.Props.Address
import Mathlib.Data.List.Dedup

/-!
# C97: peers are matched with addresses
-/
namespace Verif.Node
open Verif.Address

variable {c : Crypto} {T : Type} [DecidableEq T]

/-- The iterator gives the entries of the table, each once. -/
def IsOrder (order : AMap Bytes (Peer c) → List (Bytes × Peer c)) : Prop :=
  ∀ t, ((order t).map (·.1)).Nodup ∧ ∀ id p, (id, p) ∈ order t ↔ t.get id = some p

theorem matchLoop_sound (peers : List (Bytes × SockAddr)) : ∀ (entries : AMap SockAddr T) (result : AMap T Bytes) t id,
    (matchLoop peers entries result).get t = some id →
    result.get t = some id ∨ ∃ a, entries.get a = some t ∧ (id, a) ∈ peers := by
  induction peers with
  | nil => intro e r t id h; exact .inl h
  | cons x peers ih =>
    obtain ⟨i, a⟩ := x
    intro e r t id h
    rw [matchLoop] at h
    cases hg : e.get a with
    | none =>
      rw [hg] at h
      rcases ih e r t id h with h | ⟨b, h1, h2⟩
      · exact .inl h
      · exact .inr ⟨b, h1, by simp [h2]⟩
    | some k =>
      rw [hg] at h
      rcases ih _ _ t id h with h | ⟨b, h1, h2⟩
      · rw [AMap.get_put] at h
        split at h
        · next e1 =>
          cases h
          subst e1
          exact .inr ⟨a, hg, by simp⟩
        · exact .inl h
      · rw [AMap.get_erase] at h1
        split at h1
        · cases h1
        · exact .inr ⟨b, h1, by simp [h2]⟩

theorem matchLoop_keeps (peers : List (Bytes × SockAddr)) : ∀ (entries : AMap SockAddr T) (result : AMap T Bytes) t,
    (result.get t).isSome = true → ((matchLoop peers entries result).get t).isSome = true := by
  induction peers with
  | nil => intro e r t h; exact h
  | cons x peers ih =>
    obtain ⟨i, a⟩ := x
    intro e r t h
    rw [matchLoop]
    split
    · apply ih
      rw [AMap.get_put]
      split
      · rfl
      · exact h
    · exact ih _ _ _ h

theorem matchLoop_complete (peers : List (Bytes × SockAddr)) : ∀ (entries : AMap SockAddr T) (result : AMap T Bytes) t id a,
    entries.get a = some t → (id, a) ∈ peers → ((matchLoop peers entries result).get t).isSome = true := by
  induction peers with
  | nil => intro e r t id a _ h; cases h
  | cons x peers ih =>
    obtain ⟨i, b⟩ := x
    intro e r t id a h1 h2
    rw [matchLoop]
    by_cases hb : b = a
    · subst hb
      rw [h1]
      apply matchLoop_keeps
      rw [AMap.get_put, if_pos rfl]
      rfl
    · have h2 : (id, a) ∈ peers := by
        rcases List.mem_cons.1 h2 with h | h
        · cases h; exact absurd rfl hb
        · exact h
      split
      · refine ih _ _ t id a ?_ h2
        rw [AMap.get_erase]
        rw [if_neg (Ne.symm hb)]
        exact h1
      · exact ih _ _ t id a h1 h2

/-- **C97.** Whatever the order of the iterator, each entry of the result is a peer that has the address of an entry
with the same key, and a key is missing only if no peer has an address it was given for. -/
theorem C97_matched (order : AMap Bytes (Peer c) → List (Bytes × Peer c)) (ho : IsOrder order) (s : State c)
    (localId : Bytes) (entries : AMap SockAddr T) (result : AMap T Bytes)
    (h : matchPeerAddresses order s localId entries = some result) (key : T) :
    (∀ id, result.get key = some id → ∃ a, entries.get a = some key ∧ getPeerAddress s localId id = some a) ∧
    (result.get key = none ↔ ¬ ∃ a id, entries.get a = some key ∧ getPeerAddress s localId id = some a) := by
  unfold matchPeerAddresses at h
  cases ht : s.peers.get localId with
  | none => rw [ht] at h; cases h
  | some t =>
    rw [ht] at h
    cases h
    have hmem : ∀ id a, (id, a) ∈ ((order t).map fun e => (e.1, unpack e.2.addr)) ↔ getPeerAddress s localId id = some a := by
      intro id a
      unfold getPeerAddress State.peer
      rw [ht]
      simp only [List.mem_map, Prod.exists, Prod.mk.injEq, Option.map_eq_some_iff]
      constructor
      · rintro ⟨i, p, h1, rfl, h2⟩
        exact ⟨p, ((ho t).2 _ _).1 h1, h2⟩
      · rintro ⟨p, h1, h2⟩
        exact ⟨id, p, ((ho t).2 _ _).2 h1, rfl, h2⟩
    have hs : ∀ id, (matchLoop ((order t).map fun e => (e.1, unpack e.2.addr)) entries []).get key = some id →
        ∃ a, entries.get a = some key ∧ getPeerAddress s localId id = some a := by
      intro id h
      rcases matchLoop_sound _ _ _ _ _ h with h | ⟨a, h1, h2⟩
      · cases h
      · exact ⟨a, h1, (hmem _ _).1 h2⟩
    refine ⟨hs, ?_⟩
    constructor
    · rintro h ⟨a, id, h1, h2⟩
      have := matchLoop_complete _ entries [] key id a h1 ((hmem _ _).2 h2)
      rw [h] at this
      cases this
    · intro h
      cases hg : (matchLoop ((order t).map fun e => (e.1, unpack e.2.addr)) entries []).get key with
      | none => rfl
      | some id =>
        obtain ⟨a, h1, h2⟩ := hs id hg
        exact absurd ⟨a, id, h1, h2⟩ h

/-- **C97.** The address of a peer is the one it was last added with. -/
theorem C97_added (o : Opts c) (s s' : State c) (l q : Bytes) (addr : SockAddr) (pub : c.Pub) (key : c.Sec)
    (h : addPeer o s l q addr pub key = (s', .yes)) : getPeerAddress s' l q = some addr := by
  obtain ⟨-, hs, p, hp, rfl⟩ := Dht.addPeer_yes o s l q addr pub key s' h
  unfold getPeerAddress
  rw [peer_setPeer, if_pos ⟨rfl, rfl, hs⟩, Option.map_some, hp, Props.C23_pack_unpack]

/-- One way of iterating. -/
def someOrder (t : AMap Bytes (Peer c)) : List (Bytes × Peer c) :=
  (t.map (·.1)).dedup.filterMap fun k => (t.get k).map fun p => (k, p)

theorem someOrder_isOrder : IsOrder (someOrder (c := c)) := by
  intro t
  have hmem : ∀ id p, (id, p) ∈ someOrder t ↔ t.get id = some p := by
    intro id p
    unfold someOrder
    simp only [List.mem_filterMap, List.mem_dedup, Option.map_eq_some_iff, Prod.mk.injEq]
    constructor
    · rintro ⟨k, -, p', h, rfl, rfl⟩
      exact h
    · intro h
      refine ⟨id, ?_, p, h, rfl, rfl⟩
      induction t with
      | nil => cases h
      | cons x t ih =>
        rw [AMap.get] at h
        split at h
        · next e => simp [e]
        · simp [ih h]
  refine ⟨?_, hmem⟩
  unfold someOrder
  have hnd := List.nodup_dedup (t.map (·.1))
  generalize (t.map (·.1)).dedup = l at hnd
  induction l with
  | nil => simp
  | cons k l ih =>
    rw [List.nodup_cons] at hnd
    rw [List.filterMap_cons]
    cases hk : t.get k with
    | none => exact ih hnd.2
    | some p =>
      simp only [Option.map_some, List.map_cons, List.nodup_cons]
      refine ⟨?_, ih hnd.2⟩
      intro hm
      obtain ⟨⟨k', p'⟩, h1, rfl⟩ := List.mem_map.1 hm
      obtain ⟨k2, h2, h3⟩ := List.mem_filterMap.1 h1
      simp only [Option.map_eq_some_iff, Prod.mk.injEq] at h3
      obtain ⟨_, _, rfl, _⟩ := h3
      exact hnd.1 h2

section
open Verif.Adnl

/-- Two peers, at 1.2.3.4:5 and 1.2.3.4:6. -/
def twoPeers : State Crypto.toy where
  peers := [([1], [([2], Peer.new 0 ⟨1, 2, 3, 4, 5⟩ (show UInt8 from 2) (show UInt8 from 9)),
    ([3], Peer.new 0 ⟨1, 2, 3, 4, 6⟩ (show UInt8 from 3) (show UInt8 from 9))])]
  heap := []
  next := 0
  byPeer := []
  byId := []

example : matchPeerAddresses someOrder twoPeers [1] [(⟨1, 2, 3, 4, 6⟩, "a"), (⟨1, 2, 3, 4, 7⟩, "b")] =
    some [("a", [3])] := by decide +kernel

example : (matchPeerAddresses someOrder twoPeers [1] [(⟨1, 2, 3, 4, 6⟩, "a"), (⟨1, 2, 3, 4, 7⟩, "b")]).isSome = true ∧
    ∀ id, AMap.get [("a", [3])] "a" = some id →
      ∃ a, AMap.get [(⟨1, 2, 3, 4, 6⟩, "a"), (⟨1, 2, 3, 4, 7⟩, "b")] a = some "a" ∧
        getPeerAddress twoPeers [1] id = some a :=
  ⟨by decide +kernel, (C97_matched someOrder someOrder_isOrder twoPeers [1] _ _
    (show _ = some [("a", [3])] by decide +kernel) "a").1⟩

end

end Verif.Node
