import Verif.Model.Discover
import Verif.Proofs.Receiver
import Verif.Props.DhtNode

/-!
# C89, C92: what node records received from others do
-/
namespace Verif.Dht
open Verif.Address Verif.DhtProto Verif.Storage

variable {c : Crypto}

/-! ### Specification -/

/-- The record is signed by the node `id`, which is not the node itself, has a valid address which is not the node's
own, and passes the filter. -/
structure Useful (o : Opts c) (now : Nat) (localId : Bytes) (n : DNode) (id : Bytes) : Prop where
  signed : NodeOk c localId id n
  address : ∃ a, parse o.adnl.build now o.adnl.clockTolerance n.addrList = .ok a ∧ a ≠ o.adnl.socketAddr ∧
    ∀ f, o.adnl.filter = some f → f a id = true

/-- The record has no usable key, or it is signed but has no valid address. -/
def Harmful (o : Opts c) (now : Nat) (n : DNode) : Prop :=
  (∀ key pub, n.id = .ed25519 key → c.decodePub key ≠ some pub) ∨
  ∃ key pub, n.id = .ed25519 key ∧ c.decodePub key = some pub ∧ n.signature.length = 64 ∧
    c.verify pub (writeDNodeBoxed { n with signature := [] }) n.signature = true ∧
    ∀ a, parse o.adnl.build now o.adnl.clockTolerance n.addrList ≠ .ok a

/-- The node has a table of peers. -/
def HasTable (s : State c) : Prop := (s.adnl.peers.get s.buckets.localId).isSome

/-- The peer is known to the node below. -/
def KnownPeer (s : State c) (id : Bytes) : Prop := (s.adnl.peer s.buckets.localId id).isSome

/-- The property C89: whoever answers what, every useful record in the answers makes its node known. -/
def C89_full (c : Crypto) : Prop :=
  ∀ (o : Opts c) (now : Nat) (s : State c) (answers : List (Option (List (DNode × c.Sec)))), HasTable s →
    ∀ l n key id, some l ∈ answers → (n, key) ∈ l → Useful o now s.buckets.localId n id →
      KnownPeer (findMore o now s answers).1 id

/-- The property C92: a record not newer than one already taken does not change the address of the node. -/
def C92_full (c : Crypto) : Prop :=
  ∀ (o : Opts c) (now now' : Nat) (s : State c) (n n' : DNode) (key key' : c.Sec) (id : Bytes),
    (addDhtPeer o now s n key).2 = .some id → n'.id = n.id → n'.version ≤ n.version →
    (((addDhtPeer o now' (addDhtPeer o now s n key).1 n' key').1.adnl.peer s.buckets.localId id).map (·.addr)) =
      ((addDhtPeer o now s n key).1.adnl.peer s.buckets.localId id).map (·.addr)

/-! ### One record -/

structure Effect (o : Opts c) (now : Nat) (s s' : State c) (n : DNode) : Prop where
  loc : s'.buckets.localId = s.buckets.localId
  table : HasTable s → HasTable s'
  old : ∀ l q p, s'.adnl.peer l q = some p → s.adnl.peer l q = some p ∨
    (l = s.buckets.localId ∧ NodeOk c l q n ∧
      ∃ a, parse o.adnl.build now o.adnl.clockTolerance n.addrList = .ok a ∧ p.addr = pack a)
  keep : ∀ l q, (s.adnl.peer l q).isSome → (s'.adnl.peer l q).isSome

theorem Effect.refl (o : Opts c) (now : Nat) (s : State c) (n : DNode) : Effect o now s s n :=
  ⟨rfl, fun h => h, fun _ _ _ h => .inl h, fun _ _ h => h⟩

theorem addPeer_yes (o : Node.Opts c) (s : Node.State c) (l q : Bytes) (a : SockAddr) (pub : c.Pub) (key : c.Sec)
    (s' : Node.State c) (h : Node.addPeer o s l q a pub key = (s', .yes)) :
    q ≠ l ∧ (s.peers.get l).isSome ∧ ∃ p, p.addr = pack a ∧ s' = s.setPeer l q p := by
  unfold Node.addPeer at h
  split at h
  · cases h
  · rename_i h1
    split at h
    · cases h
    · split at h
      · cases h
      · rename_i t ht
        have h1 : q ≠ l := fun e => h1 (.inl e)
        split at h
        · rename_i p hp
          cases h
          exact ⟨h1, by rw [ht]; rfl, _, rfl, rfl⟩
        · cases h
          exact ⟨h1, by rw [ht]; rfl, _, rfl, rfl⟩

theorem nodeOk_of {peer : DNode} {pub : c.Pub} (hf : Receiver.fullId c peer.id = some pub)
    (hv : verifySig c pub (writeDNodeBoxed { peer with signature := [] }) peer.signature = true) :
    ∃ key, peer.id = .ed25519 key ∧ c.decodePub key = some pub ∧ peer.signature.length = 64 ∧
      c.verify pub (writeDNodeBoxed { peer with signature := [] }) peer.signature = true := by
  simp only [verifySig, Bool.and_eq_true, decide_eq_true_eq] at hv
  cases hk : peer.id with
  | ed25519 k => rw [hk] at hf; exact ⟨k, rfl, hf, hv.1, hk ▸ hv.2⟩
  | aes k => rw [hk] at hf; cases hf
  | overlay k => rw [hk] at hf; cases hf
  | unenc k => rw [hk] at hf; cases hf

theorem effect_of {o : Opts c} {now : Nat} {s : State c} {n : DNode} {pub : c.Pub} {a : SockAddr}
    (hf : Receiver.fullId c n.id = some pub)
    (hv : verifySig c pub (writeDNodeBoxed { n with signature := [] }) n.signature = true)
    (hp : parse o.adnl.build now o.adnl.clockTolerance n.addrList = .ok a) {key : c.Sec} {adnl : Node.State c}
    (ha : Node.addPeer o.adnl s.adnl s.buckets.localId (Node.shortId c pub) a pub key = (adnl, .yes))
    {s' : State c} (h1 : s'.adnl = adnl) (h2 : s'.buckets.localId = s.buckets.localId) : Effect o now s s' n := by
  obtain ⟨hne, ht, p, hpa, rfl⟩ := addPeer_yes _ _ _ _ _ _ _ _ ha
  obtain ⟨k, k1, k2, k3, k4⟩ := nodeOk_of hf hv
  refine ⟨h2, ?_, ?_, ?_⟩
  · intro _
    unfold HasTable
    rw [h1, h2]
    have : ((s.adnl.setPeer s.buckets.localId (Node.shortId c pub) p).peer s.buckets.localId (Node.shortId c pub)) = some p := by
      rw [Node.peer_setPeer, if_pos ⟨rfl, rfl, ht⟩]
    exact Node.peer_some_table this
  · intro l q p' hq
    rw [h1, Node.peer_setPeer] at hq
    split at hq
    · rename_i hc
      obtain ⟨rfl, rfl, -⟩ := hc
      cases hq
      exact .inr ⟨rfl, ⟨k, pub, k1, k2, rfl, hne, k3, k4⟩, a, hp, hpa⟩
    · exact .inl hq
  · intro l q hq
    rw [h1, Node.peer_setPeer]
    split
    · rfl
    · exact hq

theorem addDhtPeer_effect (o : Opts c) (now : Nat) (s : State c) (n : DNode) (key : c.Sec) :
    Effect o now s (addDhtPeer o now s n key).1 n := by
  unfold addDhtPeer
  cases hf : Receiver.fullId c n.id with
  | none => exact Effect.refl ..
  | some pub =>
    simp only
    by_cases hv : verifySig c pub (writeDNodeBoxed { n with signature := [] }) n.signature = false
    · rw [if_pos hv]; exact Effect.refl ..
    rw [if_neg hv]
    cases hp : parse o.adnl.build now o.adnl.clockTolerance n.addrList with
    | listIsEmpty => exact Effect.refl ..
    | tooNew => exact Effect.refl ..
    | expired => exact Effect.refl ..
    | panic => exact Effect.refl ..
    | ok a =>
      simp only
      cases ha : Node.addPeer o.adnl s.adnl s.buckets.localId (Node.shortId c pub) a pub key with
      | mk adnl r =>
        cases r with
        | peersNotFound => exact Effect.refl ..
        | no => exact Effect.refl ..
        | yes =>
          simp only
          have hv : verifySig c pub (writeDNodeBoxed { n with signature := [] }) n.signature = true := by simpa using hv
          split
          · exact effect_of hf hv hp ha rfl rfl
          · exact effect_of hf hv hp ha rfl rfl

theorem addPeer_found (o : Node.Opts c) (s : Node.State c) (l q : Bytes) (a : SockAddr) (pub : c.Pub) (key : c.Sec)
    (h : (s.peers.get l).isSome) : (Node.addPeer o s l q a pub key).2 ≠ .peersNotFound := by
  unfold Node.addPeer
  split
  · simp
  · split
    · simp
    · split
      · rename_i hn
        rw [hn] at h
        cases h
      · split <;> simp

theorem addDhtPeer_error (o : Opts c) (now : Nat) (s : State c) (n : DNode) (key : c.Sec) (ht : HasTable s) :
    (addDhtPeer o now s n key).2 = .error ↔ Harmful o now n := by
  unfold addDhtPeer
  cases hf : Receiver.fullId c n.id with
  | none =>
    simp only [true_iff]
    refine .inl fun k pub hk hd => ?_
    rw [hk] at hf
    rw [show Receiver.fullId c (.ed25519 k) = c.decodePub k from rfl, hd] at hf
    cases hf
  | some pub =>
    have hk : ∃ k, n.id = .ed25519 k ∧ c.decodePub k = some pub := by
      cases hk : n.id with
      | ed25519 k => rw [hk] at hf; exact ⟨k, rfl, hf⟩
      | aes k => rw [hk] at hf; cases hf
      | overlay k => rw [hk] at hf; cases hf
      | unenc k => rw [hk] at hf; cases hf
    obtain ⟨k, hk, hd⟩ := hk
    have harm : Harmful o now n ↔ (n.signature.length = 64 ∧
        c.verify pub (writeDNodeBoxed { n with signature := [] }) n.signature = true ∧
        ∀ a, parse o.adnl.build now o.adnl.clockTolerance n.addrList ≠ .ok a) := by
      constructor
      · rintro (h | ⟨k', pub', h1, h2, h3⟩)
        · exact absurd hd (h k pub hk)
        · rw [hk] at h1
          cases h1
          rw [hd] at h2
          cases h2
          exact h3
      · rintro h
        exact .inr ⟨k, pub, hk, hd, h⟩
    simp only
    rw [harm]
    by_cases hv : verifySig c pub (writeDNodeBoxed { n with signature := [] }) n.signature = false
    · rw [if_pos hv]
      simp only [reduceCtorEq, false_iff]
      rintro ⟨h1, h2, -⟩
      simp [verifySig, h1, h2] at hv
    rw [if_neg hv]
    have hv : verifySig c pub (writeDNodeBoxed { n with signature := [] }) n.signature = true := by simpa using hv
    simp only [verifySig, Bool.and_eq_true, decide_eq_true_eq] at hv
    cases hp : parse o.adnl.build now o.adnl.clockTolerance n.addrList with
    | listIsEmpty => simp [hv.1, hv.2]
    | tooNew => simp [hv.1, hv.2]
    | expired => simp [hv.1, hv.2]
    | panic => simp [hv.1, hv.2]
    | ok a =>
      have := addPeer_found o.adnl s.adnl s.buckets.localId (Node.shortId c pub) a pub key ht
      simp only
      cases ha : Node.addPeer o.adnl s.adnl s.buckets.localId (Node.shortId c pub) a pub key with
      | mk adnl r =>
        rw [ha] at this
        cases r with
        | peersNotFound => exact absurd rfl this
        | no => simp
        | yes => simp only; split <;> simp

/-- C92, why the full statement fails: whichever useful record comes last sets the address. -/
theorem C92_last_wins_partial (o : Opts c) (now : Nat) (s : State c) (n : DNode) (key : c.Sec) (ht : HasTable s)
    (id : Bytes) (h : Useful o now s.buckets.localId n id) : ∃ p a, (addDhtPeer o now s n key).1.adnl.peer s.buckets.localId id = some p ∧
      parse o.adnl.build now o.adnl.clockTolerance n.addrList = .ok a ∧ p.addr = pack a := by
  obtain ⟨k, pub, h1, h2, rfl, h4, h5, h6⟩ := h.signed
  obtain ⟨a, h7, h8, h9⟩ := h.address
  have hf : Receiver.fullId c n.id = some pub := by rw [h1]; exact h2
  have hv : verifySig c pub (writeDNodeBoxed { n with signature := [] }) n.signature = true := by
    simp [verifySig, h5, h6]
  have hy : (Node.addPeer o.adnl s.adnl s.buckets.localId (Node.shortId c pub) a pub key).2 = .yes := by
    unfold Node.addPeer
    rw [if_neg (by rintro (h | h) <;> [exact h4 h; exact h8 h])]
    have : (o.adnl.filter.map (fun f => f a (Node.shortId c pub))).getD true = true := by
      cases hfl : o.adnl.filter with
      | none => rfl
      | some f => simpa using h9 f hfl
    rw [if_neg (by rw [this]; simp)]
    cases hg : s.adnl.peers.get s.buckets.localId with
    | none => unfold HasTable at ht; rw [hg] at ht; cases ht
    | some t => simp only; split <;> rfl
  unfold addDhtPeer
  rw [hf]
  simp only
  rw [if_neg (by rw [hv]; simp), h7]
  simp only
  cases ha : Node.addPeer o.adnl s.adnl s.buckets.localId (Node.shortId c pub) a pub key with
  | mk adnl r =>
    rw [ha] at hy
    cases hy
    obtain ⟨-, hs, p, hpa, rfl⟩ := addPeer_yes _ _ _ _ _ _ _ _ ha
    simp only
    have : (s.adnl.setPeer s.buckets.localId (Node.shortId c pub) p).peer s.buckets.localId (Node.shortId c pub) = some p := by
      rw [Node.peer_setPeer, if_pos ⟨rfl, rfl, hs⟩]
    split <;> exact ⟨p, a, this, rfl, hpa⟩

theorem addDhtPeer_useful (o : Opts c) (now : Nat) (s : State c) (n : DNode) (key : c.Sec) (ht : HasTable s)
    (id : Bytes) (h : Useful o now s.buckets.localId n id) : KnownPeer (addDhtPeer o now s n key).1 id := by
  obtain ⟨p, a, h1, -⟩ := C92_last_wins_partial o now s n key ht id h
  unfold KnownPeer
  rw [(addDhtPeer_effect o now s n key).loc, h1]
  rfl

/-! ### C89 -/

theorem addEach_keeps (o : Opts c) (now : Nat) (l : List (DNode × c.Sec)) : ∀ s, HasTable s →
    HasTable (addEach o now s l) ∧ (addEach o now s l).buckets.localId = s.buckets.localId ∧
    ∀ id, KnownPeer s id → KnownPeer (addEach o now s l) id := by
  induction l with
  | nil => intro s h; exact ⟨h, rfl, fun _ h => h⟩
  | cons e l ih =>
    intro s h
    have he := addDhtPeer_effect o now s e.1 e.2
    obtain ⟨h1, h2, h3⟩ := ih _ (he.table h)
    refine ⟨h1, h2.trans he.loc, fun id hk => h3 id ?_⟩
    unfold KnownPeer
    rw [he.loc]
    exact he.keep _ _ hk

/-- Lookups of values do make all useful nodes known (dht/node.rs:513-520), whatever else is in the answer. -/
theorem C89_lookups_add_all_partial (o : Opts c) (now : Nat) (s : State c) (l : List (DNode × c.Sec)) (ht : HasTable s)
    (n : DNode) (key : c.Sec) (id : Bytes) (hm : (n, key) ∈ l) (hu : Useful o now s.buckets.localId n id) :
    KnownPeer (addEach o now s l) id := by
  induction l generalizing s with
  | nil => cases hm
  | cons e l ih =>
    have he := addDhtPeer_effect o now s e.1 e.2
    rcases List.mem_cons.mp hm with rfl | hm
    · exact (addEach_keeps o now l _ (he.table ht)).2.2 id (addDhtPeer_useful o now s n key ht id hu)
    · exact ih _ (he.table ht) hm (he.loc ▸ hu)

theorem addAll_ok (o : Opts c) (now : Nat) (l : List (DNode × c.Sec)) : ∀ s, HasTable s →
    (∀ e ∈ l, ¬ Harmful o now e.1) → ∃ k, addAll o now s l = (addEach o now s l, some k) := by
  induction l with
  | nil => intro s _ _; exact ⟨0, rfl⟩
  | cons e l ih =>
    intro s ht h
    obtain ⟨n, key⟩ := e
    have he := addDhtPeer_effect o now s n key
    have hr := (addDhtPeer_error o now s n key ht).not.mpr (h _ List.mem_cons_self)
    simp only [addAll, addEach, List.foldl_cons]
    cases ha : addDhtPeer o now s n key with
    | mk s' r =>
      rw [ha] at he hr
      obtain ⟨k, hk⟩ := ih s' (he.table ht) (fun e h' => h e (List.mem_cons_of_mem _ h'))
      cases r with
      | error => exact absurd rfl hr
      | none => exact ⟨k, hk⟩
      | some id => exact ⟨k + 1, by simp only [hk, Option.map_some]; rfl⟩

theorem addAll_bad (o : Opts c) (now : Nat) (l : List (DNode × c.Sec)) (bad : DNode × c.Sec)
    (rest : List (DNode × c.Sec)) (hb : Harmful o now bad.1) : ∀ s, HasTable s →
    (∀ e ∈ l, ¬ Harmful o now e.1) →
    addAll o now s (l ++ bad :: rest) = ((addDhtPeer o now (addEach o now s l) bad.1 bad.2).1, none) := by
  induction l with
  | nil =>
    intro s ht _
    have hr := (addDhtPeer_error o now s bad.1 bad.2 ht).mpr hb
    simp only [List.nil_append, addAll, addEach, List.foldl_nil]
    cases ha : addDhtPeer o now s bad.1 bad.2 with
    | mk s' r => rw [ha] at hr; cases hr; rfl
  | cons e l ih =>
    intro s ht h
    obtain ⟨n, key⟩ := e
    have he := addDhtPeer_effect o now s n key
    have hr := (addDhtPeer_error o now s n key ht).not.mpr (h _ List.mem_cons_self)
    simp only [List.cons_append, addAll, addEach, List.foldl_cons]
    cases ha : addDhtPeer o now s n key with
    | mk s' r =>
      rw [ha] at he hr
      have hk := ih s' (he.table ht) (fun e h' => h e (List.mem_cons_of_mem _ h'))
      cases r with
      | error => exact absurd rfl hr
      | none => exact hk
      | some id => simp only [hk, Option.map_none]; rfl

/-- All records of the answers. -/
def allOf (answers : List (Option (List (DNode × c.Sec)))) : List (DNode × c.Sec) :=
  (answers.map (·.getD [])).flatten

theorem findMore_ok (o : Opts c) (now : Nat) (answers : List (Option (List (DNode × c.Sec)))) : ∀ s, HasTable s →
    (∀ e ∈ allOf answers, ¬ Harmful o now e.1) → ∃ k, findMore o now s answers = (addEach o now s (allOf answers), some k) := by
  induction answers with
  | nil => intro s _ _; exact ⟨0, rfl⟩
  | cons a answers ih =>
    intro s ht h
    cases a with
    | none => exact ih s ht h
    | some l =>
      have h1 : ∀ e ∈ l, ¬ Harmful o now e.1 := fun e he => h e (by simp [allOf, he])
      have h2 : ∀ e ∈ allOf answers, ¬ Harmful o now e.1 := fun e he => h e (by
        simp only [allOf, List.map_cons, List.flatten_cons, List.mem_append]
        exact .inr he)
      obtain ⟨k, hk⟩ := addAll_ok o now l s ht h1
      obtain ⟨k', hk'⟩ := ih _ (addEach_keeps o now l s ht).1 h2
      refine ⟨k + k', ?_⟩
      simp only [findMore, hk, hk', Option.map_some]
      simp [allOf, addEach, List.foldl_append]

/-- C89, what holds: if no record is harmful, the call succeeds and all useful records make their nodes known. -/
theorem C89_all_partial (o : Opts c) (now : Nat) (s : State c) (answers : List (Option (List (DNode × c.Sec))))
    (ht : HasTable s) (h : ∀ l n key, some l ∈ answers → (n, key) ∈ l → ¬ Harmful o now n) :
    (∃ k, (findMore o now s answers).2 = some k) ∧
    ∀ l n key id, some l ∈ answers → (n, key) ∈ l → Useful o now s.buckets.localId n id →
      KnownPeer (findMore o now s answers).1 id := by
  have mem : ∀ e, e ∈ allOf answers ↔ ∃ l, some l ∈ answers ∧ e ∈ l := by
    intro e
    simp only [allOf, List.mem_flatten, List.mem_map]
    constructor
    · rintro ⟨l, ⟨a, h1, rfl⟩, h2⟩
      cases a with
      | none => cases h2
      | some l => exact ⟨l, h1, h2⟩
    · rintro ⟨l, h1, h2⟩
      exact ⟨l, ⟨some l, h1, rfl⟩, h2⟩
  obtain ⟨k, hk⟩ := findMore_ok o now answers s ht (fun e he => by
    obtain ⟨l, h1, h2⟩ := (mem e).mp he
    exact h l e.1 e.2 h1 h2)
  refine ⟨⟨k, by rw [hk]⟩, fun l n key id h1 h2 h3 => ?_⟩
  rw [hk]
  exact C89_lookups_add_all_partial o now s _ ht n key id ((mem _).mpr ⟨l, h1, h2⟩) h3

/-- C89, why the full statement fails: the first harmful record ends the call with an error. The rest of its answer
and all answers that come in later are ignored. -/
theorem C89_first_harmful_ends_partial (o : Opts c) (now : Nat) (s : State c) (ht : HasTable s)
    (pre post : List (Option (List (DNode × c.Sec)))) (l rest : List (DNode × c.Sec)) (bad : DNode × c.Sec)
    (h1 : ∀ e ∈ allOf pre, ¬ Harmful o now e.1) (h2 : ∀ e ∈ l, ¬ Harmful o now e.1) (hb : Harmful o now bad.1) :
    findMore o now s (pre ++ some (l ++ bad :: rest) :: post) =
      ((findMore o now s (pre ++ [some (l ++ [bad])])).1, none) := by
  induction pre generalizing s with
  | nil =>
    simp only [List.nil_append, findMore, addAll_bad o now l bad rest hb s ht h2, addAll_bad o now l bad [] hb s ht h2]
  | cons a pre ih =>
    cases a with
    | none => exact ih s ht h1
    | some m =>
      have h3 : ∀ e ∈ m, ¬ Harmful o now e.1 := fun e he => h1 e (by simp [allOf, he])
      have h4 : ∀ e ∈ allOf pre, ¬ Harmful o now e.1 := fun e he => h1 e (by
        simp only [allOf, List.map_cons, List.flatten_cons, List.mem_append]
        exact .inr he)
      obtain ⟨k, hk⟩ := addAll_ok o now m s ht h3
      simp only [List.cons_append, findMore, hk, ih _ (addEach_keeps o now m s ht).1 h4, Option.map_none]

namespace DiscoverExample
open Dht.Example

/-- A record without a usable key. -/
def junk : DNode := ⟨.overlay [], ⟨none, 0, 0, 0⟩, 0, []⟩

theorem junk_harmful : Harmful Dht.Example.o 1000 junk := .inl fun _ _ h => by cases h

theorem table : HasTable Example.s0 := by unfold HasTable; decide +kernel

theorem useful (k : UInt8) (v : Nat) (hv : Node.shortId T k ≠ localId)
    (h : T.verify k (writeDNodeBoxed { Example.node k v with signature := [] }) (Example.node k v).signature = true)
    (h64 : (Example.node k v).signature.length = 64) (hd : T.decodePub (T.pubBytes k) = some k) :
    Useful Dht.Example.o 1000 localId (Example.node k v) (Node.shortId T k) :=
  ⟨⟨T.pubBytes k, k, rfl, hd, rfl, hv, h64, h⟩, ofAddr ⟨77, 88⟩, rfl, by decide, fun f h => by cases h⟩

theorem useful1 : Useful Dht.Example.o 1000 localId (Example.node 1 1) (Node.shortId T (1 : UInt8)) :=
  useful 1 1 (by decide +kernel) (by decide +kernel) (by decide +kernel) rfl

/-- An answer of a bad node, and one of a good node. -/
def answers : List (Option (List (DNode × T.Sec))) := [some [(junk, (7 : UInt8))], some [(Example.node 1 1, (7 : UInt8))]]

theorem lost : (findMore Dht.Example.o 1000 Example.s0 answers).2 = none ∧
    ¬ KnownPeer (findMore Dht.Example.o 1000 Example.s0 answers).1 (Node.shortId T (1 : UInt8)) := by
  unfold KnownPeer
  decide +kernel

/-- `C89_all_partial` applies. -/
example : KnownPeer (findMore Dht.Example.o 1000 Example.s0 [none, some [(Example.node 1 1, (7 : UInt8))]]).1
    (Node.shortId T (1 : UInt8)) :=
  (C89_all_partial Dht.Example.o 1000 Example.s0 [none, some [(Example.node 1 1, (7 : UInt8))]] table (by
    intro l n key h1 h2
    simp only [List.mem_cons, reduceCtorEq, List.not_mem_nil, or_false, false_or, Option.some.injEq] at h1
    subst h1
    simp only [List.mem_cons, List.not_mem_nil, or_false] at h2
    cases h2
    rw [← addDhtPeer_error Dht.Example.o 1000 Example.s0 (Example.node 1 1) (7 : UInt8) table]
    decide +kernel)).2 _ (Example.node 1 1) (7 : UInt8) _ (List.mem_cons_of_mem _ List.mem_cons_self) List.mem_cons_self useful1

/-- `C89_first_harmful_ends_partial` applies. -/
example := C89_first_harmful_ends_partial Dht.Example.o 1000 Example.s0 table [] [some [(Example.node 1 1, (7 : UInt8))]]
  [] [] (junk, (7 : UInt8)) (by simp [allOf]) (by simp) junk_harmful

end DiscoverExample

open DiscoverExample Dht.Example in
/-- C89 is false: one record without a key loses the answers of everybody else. -/
theorem C89_full_false : ¬ C89_full Crypto.toy := fun h =>
  lost.2 (h Dht.Example.o 1000 Example.s0 answers table _ (Example.node 1 1) (7 : UInt8) _
    (List.mem_cons_of_mem _ List.mem_cons_self) List.mem_cons_self useful1)

/-! ### C92 -/

/-- The records that something happening to the node brings, with the time. -/
def queryRecords : Query → List DNode
  | .withNode n q => n :: queryRecords q
  | _ => []

def records : Op c → List (Nat × DNode)
  | .query _ now _ _ q => (queryRecords q).map fun n => (now, n)
  | .learned now _ n => [(now, n)]
  | _ => []

theorem handle_address (o : Opts c) (order : List ONode → List ONode) (now now' : Nat) (key : c.Sec) (qu : Query) :
    ∀ (s : State c), (handle o order now now' key s qu).1.buckets.localId = s.buckets.localId ∧
    ∀ l q p, (handle o order now now' key s qu).1.adnl.peer l q = some p →
      s.adnl.peer l q = some p ∨ ∃ n ∈ queryRecords qu, l = s.buckets.localId ∧ NodeOk c l q n ∧
        ∃ a, parse o.adnl.build now o.adnl.clockTolerance n.addrList = .ok a ∧ p.addr = pack a := by
  induction qu with
  | ping r => intro s; exact ⟨rfl, fun _ _ _ h => .inl h⟩
  | findNode k n => intro s; exact ⟨rfl, fun _ _ _ h => .inl h⟩
  | findValue k n =>
    intro s
    unfold handle
    cases findValue o now s k n <;> exact ⟨rfl, fun _ _ _ h => .inl h⟩
  | getSignedAddressList => intro s; exact ⟨rfl, fun _ _ _ h => .inl h⟩
  | store v =>
    intro s
    unfold handle
    cases hi : Storage.insert c o.storage order now now' s.storage v with
    | mk st r => cases r <;> exact ⟨rfl, fun _ _ _ h => .inl h⟩
  | withNode n q ih =>
    intro s
    have he := addDhtPeer_effect o now s n key
    unfold handle
    cases ha : addDhtPeer o now s n key with
    | mk s' r =>
      rw [ha] at he
      have one : ∀ l q' p, s'.adnl.peer l q' = some p → s.adnl.peer l q' = some p ∨
          ∃ m ∈ queryRecords (.withNode n q), l = s.buckets.localId ∧ NodeOk c l q' m ∧
            ∃ a, parse o.adnl.build now o.adnl.clockTolerance m.addrList = .ok a ∧ p.addr = pack a := by
        intro l q' p hp
        rcases he.old l q' p hp with h | ⟨h1, h2, h3⟩
        · exact .inl h
        · exact .inr ⟨n, List.mem_cons_self, h1, h2, h3⟩
      have two : (handle o order now now' key s' q).1.buckets.localId = s.buckets.localId ∧
          ∀ l q' p, (handle o order now now' key s' q).1.adnl.peer l q' = some p → s.adnl.peer l q' = some p ∨
          ∃ m ∈ queryRecords (.withNode n q), l = s.buckets.localId ∧ NodeOk c l q' m ∧
            ∃ a, parse o.adnl.build now o.adnl.clockTolerance m.addrList = .ok a ∧ p.addr = pack a := by
        refine ⟨(ih s').1.trans he.loc, fun l q' p hp => ?_⟩
        rcases (ih s').2 l q' p hp with h | ⟨m, h1, h2, h3⟩
        · exact one l q' p h
        · exact .inr ⟨m, List.mem_cons_of_mem _ h1, h2.trans he.loc, h3⟩
      cases r with
      | error => exact ⟨he.loc, one⟩
      | none => exact two
      | some id => exact two

/-- C92, what holds: the address of a peer is the one it had at the start, or comes from a record which was received
and is signed by the peer itself. -/
theorem C92_signed_partial (o : Opts c) (ops : List (Op c)) : ∀ (s : State c),
    (run o s ops).buckets.localId = s.buckets.localId ∧
    ∀ l q p, (run o s ops).adnl.peer l q = some p → s.adnl.peer l q = some p ∨
      ∃ op ∈ ops, ∃ now n, (now, n) ∈ records op ∧ l = s.buckets.localId ∧ NodeOk c l q n ∧
        ∃ a, parse o.adnl.build now o.adnl.clockTolerance n.addrList = .ok a ∧ p.addr = pack a := by
  induction ops with
  | nil => intro s; exact ⟨rfl, fun _ _ _ h => .inl h⟩
  | cons op ops ih =>
    intro s
    have hs : (step o s op).buckets.localId = s.buckets.localId ∧
        ∀ l q p, (step o s op).adnl.peer l q = some p → s.adnl.peer l q = some p ∨
          ∃ now n, (now, n) ∈ records op ∧ l = s.buckets.localId ∧ NodeOk c l q n ∧
            ∃ a, parse o.adnl.build now o.adnl.clockTolerance n.addrList = .ok a ∧ p.addr = pack a := by
      cases op with
      | query order now now' key qu =>
        obtain ⟨h1, h2⟩ := handle_address o order now now' key qu s
        refine ⟨h1, fun l q p hp => ?_⟩
        rcases h2 l q p hp with h | ⟨n, h3, h4⟩
        · exact .inl h
        · exact .inr ⟨now, n, List.mem_map.mpr ⟨n, h3, rfl⟩, h4⟩
      | learned now key n =>
        have he := addDhtPeer_effect o now s n key
        refine ⟨he.loc, fun l q p hp => ?_⟩
        rcases he.old l q p hp with h | h
        · exact .inl h
        · exact .inr ⟨now, n, List.mem_singleton.mpr rfl, h⟩
      | gc shard now => exact ⟨rfl, fun _ _ _ h => .inl h⟩
      | status peer r => exact ⟨rfl, fun _ _ _ h => .inl h⟩
    obtain ⟨h1, h2⟩ := ih (step o s op)
    refine ⟨h1.trans hs.1, fun l q p hp => ?_⟩
    rcases h2 l q p hp with h | ⟨op', h3, now, n, h4, h5, h6⟩
    · rcases hs.2 l q p h with h | ⟨now, n, h4⟩
      · exact .inl h
      · exact .inr ⟨op, List.mem_cons_self, now, n, h4⟩
    · exact .inr ⟨op', List.mem_cons_of_mem _ h3, now, n, h4, h5.trans hs.1, h6⟩

namespace DiscoverExample
open Dht.Example

/-- An older record with another address. -/
def older : DNode :=
  let n : DNode := ⟨.ed25519 (T.pubBytes (1 : UInt8)), ⟨some ⟨99, 11⟩, 1, 1, 0⟩, 0, []⟩
  { n with signature := T.sign (1 : UInt8) (writeDNodeBoxed n) }

theorem taken : (addDhtPeer Dht.Example.o 1000 Example.s0 (Example.node 1 1) (7 : UInt8)).2 =
      .some (Node.shortId T (1 : UInt8)) ∧
    (((addDhtPeer Dht.Example.o 1000 (addDhtPeer Dht.Example.o 1000 Example.s0 (Example.node 1 1) (7 : UInt8)).1 older
      (7 : UInt8)).1.adnl.peer Example.s0.buckets.localId (Node.shortId T (1 : UInt8))).map (·.addr)) ≠
      ((addDhtPeer Dht.Example.o 1000 Example.s0 (Example.node 1 1) (7 : UInt8)).1.adnl.peer Example.s0.buckets.localId
        (Node.shortId T (1 : UInt8))).map (·.addr) := by decide +kernel

end DiscoverExample

open DiscoverExample Dht.Example in
/-- C92 is false: whoever has kept an old record of a node can bring back the old address. -/
theorem C92_full_false : ¬ C92_full Crypto.toy := fun h =>
  taken.2 (h Dht.Example.o 1000 1000 Example.s0 (Example.node 1 1) older (7 : UInt8) (7 : UInt8) _ taken.1 rfl (by decide))

open DiscoverExample Dht.Example in
example := C92_last_wins_partial Dht.Example.o 1000 Example.s0 (Example.node 1 1) (7 : UInt8) table _ useful1

open DiscoverExample Dht.Example in
example := C89_lookups_add_all_partial Dht.Example.o 1000 Example.s0
  [(junk, (7 : UInt8)), (Example.node 1 1, (7 : UInt8))] table _ _ _ (List.mem_cons_of_mem _ List.mem_cons_self) useful1

end Verif.Dht
