import Verif.Model.DhtNode
import Verif.Props.Buckets
import Verif.Props.Storage

/-!
# C32, C34, C56-C58: DHT node
-/
namespace Verif.Dht
open Verif.Tl Verif.Address Verif.AdnlProto Verif.DhtProto Verif.Storage

/-! ### C34: penalties -/

/-- A history of queries: peer and outcome. -/
def runQ (p : Penalties) (evs : List (Bytes × Outcome)) : Penalties :=
  evs.foldl (fun p e => queried p e.1 e.2) p

/-- The penalty of a peer; peers not listed have none. -/
def penalty (p : Penalties) (peer : Bytes) : Nat := (p.get peer).getD 0

/-- C34 as stated; a failed query is one without an answer. -/
def C34_full : Prop :=
  (∀ p peer r, r ≠ Outcome.answer → penalty p peer < penalty (queried p peer r) peer) ∧
  (∀ p peer, penalty (queried p peer .answer) peer = penalty p peer - 1) ∧
  (∀ threshold, ∃ n, ∀ peer (rs : List Outcome), n ≤ rs.length → (∀ r ∈ rs, r ≠ Outcome.answer) →
    isBad threshold (runQ [] (rs.map fun r => (peer, r))) peer = true) ∧
  (∀ threshold peer (rs : List Outcome), (∀ r ∈ rs, r = Outcome.answer) →
    isBad threshold (runQ [] (rs.map fun r => (peer, r))) peer = false)

theorem get_queried_ne (p : Penalties) {peer peer' : Bytes} (r : Outcome) (h : peer' ≠ peer) :
    (queried p peer r).get peer' = p.get peer' := by
  unfold queried updateStatus setGood
  split <;> split <;> first | rw [AMap.get_put_ne _ _ h] | rfl

theorem get_queried_ok (p : Penalties) (peer : Bytes) (r : Outcome) (h : r ≠ .error) :
    (queried p peer r).get peer = (p.get peer).map (· - 1) := by
  have hok : r.isOk = true := by cases r <;> first | rfl | exact absurd rfl h
  unfold queried updateStatus setGood
  rw [hok, if_pos rfl]
  cases hg : p.get peer with
  | none => simp [hg]
  | some n => simp

theorem get_queried_error (p : Penalties) (peer : Bytes) :
    (queried p peer .error).get peer = some (((p.get peer).map (· + 2)).getD 0) := by
  unfold queried updateStatus
  rw [if_neg (by decide)]
  cases hg : p.get peer with
  | none => simp
  | some n => simp

/-- C34: without errors a peer is never listed, so never bad; timeouts count as successes. -/
theorem C34_no_errors_never_bad_partial (threshold : Nat) (evs : List (Bytes × Outcome)) (peer : Bytes)
    (h : ∀ r, (peer, r) ∈ evs → r ≠ .error) : isBad threshold (runQ [] evs) peer = false := by
  have key : ∀ (evs : List (Bytes × Outcome)) (p : Penalties), p.get peer = none →
      (∀ r, (peer, r) ∈ evs → r ≠ .error) → (runQ p evs).get peer = none := by
    intro evs
    induction evs with
    | nil => intro p hp _; exact hp
    | cons e evs ih =>
      intro p hp hr
      refine ih (queried p e.1 e.2) ?_ fun r hm => hr r (List.mem_cons_of_mem _ hm)
      by_cases he : peer = e.1
      · subst he
        rw [get_queried_ok p _ _ (hr e.2 List.mem_cons_self), hp]
        rfl
      · rw [get_queried_ne p _ he, hp]
  unfold isBad
  rw [key evs [] rfl h]

example : isBad 5 (runQ [] [([1], .timeout), ([2], .error), ([1], .answer)]) [1] = false :=
  C34_no_errors_never_bad_partial 5 _ [1] (by intro r h; simp at h; rcases h with rfl | rfl <;> decide)

/-- C34 as stated is false: a peer that never answers is never considered bad, because a query that
times out is reported as `Ok(None)`. -/
theorem C34_full_false : ¬ C34_full := by
  intro ⟨_, _, h, _⟩
  obtain ⟨n, hn⟩ := h 5
  have h1 := hn [] (List.replicate n .timeout) (by simp) (fun r hr => by
    rw [(List.mem_replicate.mp hr).2]; decide)
  rw [C34_no_errors_never_bad_partial 5 _ [] (by
    intro r hr
    obtain ⟨x, hx, he⟩ := List.mem_map.mp hr
    cases he
    rw [(List.mem_replicate.mp hx).2]; decide)] at h1
  cases h1

/-- C34: the first failure is not counted either. -/
theorem C34_first_error_is_free_partial (peer : Bytes) : penalty (queried [] peer .error) peer = 0 := by
  rw [penalty, get_queried_error]
  rfl

/-- C34: exact effect of a query on a peer: an error adds two points to a listed peer and lists others
with none; anything else takes away one, never going below zero; other peers are not affected. -/
theorem C34_effect_partial (p : Penalties) (peer : Bytes) (r : Outcome) :
    (∀ n, p.get peer = some n → penalty (queried p peer r) peer =
      if r = .error then n + 2 else n - 1) ∧
    (p.get peer = none → penalty (queried p peer r) peer = 0) ∧
    (∀ peer', peer' ≠ peer → penalty (queried p peer r) peer' = penalty p peer') := by
  refine ⟨?_, ?_, ?_⟩
  · intro n hn
    by_cases hr : r = .error
    · subst hr
      rw [penalty, get_queried_error, hn, if_pos rfl]
      rfl
    · rw [penalty, get_queried_ok p peer r hr, hn, if_neg hr]
      rfl
  · intro hn
    by_cases hr : r = .error
    · subst hr
      rw [penalty, get_queried_error, hn]
      rfl
    · rw [penalty, get_queried_ok p peer r hr, hn]
      rfl
  · intro peer' h
    rw [penalty, get_queried_ne p r h, penalty]

/-- Number of failed queries (errors) of a peer. -/
def errors (peer : Bytes) (evs : List (Bytes × Outcome)) : Nat := evs.countP (fun e => e = (peer, .error))

/-- C34: a peer is bad only after repeated failures: more than `threshold / 2 + 1` of them. -/
theorem C34_bad_only_after_failures_partial (threshold : Nat) (evs : List (Bytes × Outcome))
    (peer : Bytes) (h : isBad threshold (runQ [] evs) peer = true) :
    threshold + 2 < 2 * errors peer evs := by
  have key : ∀ (evs : List (Bytes × Outcome)) (p : Penalties) (k : Nat),
      (∀ n, p.get peer = some n → n + 2 ≤ 2 * k) →
      ∀ n, (runQ p evs).get peer = some n → n + 2 ≤ 2 * (k + errors peer evs) := by
    intro evs
    induction evs with
    | nil => intro p k hp n hn; simpa [errors] using hp n hn
    | cons e evs ih =>
      intro p k hp n hn
      by_cases he : peer = e.1
      · obtain ⟨x, r⟩ := e
        simp only at he
        subst he
        by_cases hr : r = .error
        · subst hr
          have := ih (queried p peer .error) (k + 1) (by
            intro m hm
            rw [get_queried_error] at hm
            cases hg : p.get peer with
            | none => rw [hg] at hm; simp at hm; omega
            | some q =>
              rw [hg] at hm
              simp at hm
              have := hp q hg
              omega) n hn
          simp only [errors, List.countP_cons, decide_true, if_true] at this ⊢
          omega
        · have := ih (queried p peer r) k (by
            intro m hm
            rw [get_queried_ok p peer r hr] at hm
            cases hg : p.get peer with
            | none => rw [hg] at hm; cases hm
            | some q =>
              rw [hg] at hm
              simp at hm
              have := hp q hg
              omega) n hn
          simp only [errors, List.countP_cons] at this ⊢
          omega
      · have := ih (queried p e.1 e.2) k (by
          intro m hm
          rw [get_queried_ne p _ he] at hm
          exact hp m hm) n hn
        simp only [errors, List.countP_cons] at this ⊢
        omega
  unfold isBad at h
  cases hg : (runQ [] evs).get peer with
  | none => rw [hg] at h; cases h
  | some n =>
    rw [hg] at h
    have h1 := key evs [] 0 (fun n hn => by cases hn) n hg
    have h2 : n > threshold := by simpa using h
    omega

example : 5 + 2 < 2 * errors [1] (List.replicate 5 ([1], .error)) :=
  C34_bad_only_after_failures_partial 5 _ [1] (by decide +kernel)

/-- C34: a peer whose queries keep failing with errors is bad from failure `threshold / 2 + 2` on,
whatever happens to other peers and whatever its penalty was. -/
theorem C34_failing_becomes_bad_partial (threshold : Nat) (p : Penalties) (evs : List (Bytes × Outcome))
    (peer : Bytes) (h : ∀ r, (peer, r) ∈ evs → r = .error) (hn : threshold + 2 < 2 * errors peer evs) :
    isBad threshold (runQ p evs) peer = true := by
  have key : ∀ (evs : List (Bytes × Outcome)) (p : Penalties) (k : Nat),
      (∀ r, (peer, r) ∈ evs → r = .error) → (k = 0 ∨ ∃ n, p.get peer = some n ∧ 2 * k ≤ n + 2) →
      (k + errors peer evs = 0 ∨
        ∃ n, (runQ p evs).get peer = some n ∧ 2 * (k + errors peer evs) ≤ n + 2) := by
    intro evs
    induction evs with
    | nil => intro p k _ hp; simpa [errors, runQ] using hp
    | cons e evs ih =>
      intro p k hr hp
      by_cases he : peer = e.1
      · obtain ⟨x, r⟩ := e
        simp only at he
        subst he
        have hre := hr r List.mem_cons_self
        subst hre
        have := ih (queried p peer .error) (k + 1) (fun r hm => hr r (List.mem_cons_of_mem _ hm)) (by
          right
          rw [get_queried_error]
          refine ⟨_, rfl, ?_⟩
          cases hg : p.get peer with
          | none =>
            rcases hp with hp | ⟨n, h1, -⟩
            · subst hp; simp
            · rw [hg] at h1; cases h1
          | some q =>
            simp only [Option.map_some, Option.getD_some]
            rcases hp with hp | ⟨n, h1, h2⟩
            · omega
            · rw [hg] at h1; cases h1; omega)
        simp only [errors, List.countP_cons, decide_true, if_true] at this ⊢
        rcases this with h1 | ⟨n, h1, h2⟩
        · omega
        · exact .inr ⟨n, h1, by omega⟩
      · have := ih (queried p e.1 e.2) k (fun r hm => hr r (List.mem_cons_of_mem _ hm)) (by
          rcases hp with hp | ⟨n, h1, h2⟩
          · exact .inl hp
          · exact .inr ⟨n, by rw [get_queried_ne p _ he]; exact h1, h2⟩)
        have hne : ¬ (e = (peer, Outcome.error)) := by
          intro h; exact he (by rw [h])
        simp only [errors, List.countP_cons, hne, decide_false] at this ⊢
        simpa [runQ] using this
  rcases key evs p 0 h (.inl rfl) with h1 | ⟨n, h1, h2⟩
  · omega
  · unfold isBad
    rw [h1]
    have : n > threshold := by omega
    simpa using this

/-- Five errors in a row (threshold 5): bad; four: not yet. -/
example : isBad 5 (runQ [] (List.replicate 5 ([1], .error))) [1] = true ∧
    isBad 5 (runQ [] (List.replicate 3 ([1], .error))) [1] = false ∧
    isBad 5 (runQ [] (List.replicate 1000 ([1], .timeout))) [1] = false := by decide +kernel

/-! ### C32: found values -/

/-- C32 as stated, for the key that was asked for. -/
def C32_full (c : Crypto) : Prop :=
  ∀ (T : Type) (parseT : Bytes → Option T) (asked : Key) (answer : Bytes) (key : KeyDesc) (t : T),
    parseValueResult c parseT answer = .value key t →
    key.key = asked ∧ ∃ v, v.key = key ∧ parseT v.value = some t ∧ SignedByOwner c v

/-- C32: what is true: a value of a signature-updated key has valid signatures by the owner, and the
owner hashes to the key id. -/
theorem C32_signed_values_partial (c : Crypto) {T : Type} (parseT : Bytes → Option T) (answer : Bytes)
    (key : KeyDesc) (t : T) (h : parseValueResult c parseT answer = .value key t)
    (hr : key.rule = .signature) :
    key.key.id = c.sha (writePubKey key.id) ∧
    ∃ v, v.key = key ∧ parseT v.value = some t ∧ SignedByOwner c v := by
  unfold parseValueResult at h
  cases hd : readValueResult answer with
  | none => rw [hd] at h; cases h
  | some p =>
    obtain ⟨r, rest⟩ := p
    rw [hd] at h
    cases r with
    | notFound l => cases h
    | found v =>
      simp only at h
      split at h
      · cases h
      rename_i hv
      cases hp : parseT v.value with
      | none => rw [hp] at h; cases h
      | some t' =>
        rw [hp] at h
        cases h
        have hver : verifySigned c v = true := by
          cases hver : verifySigned c v with
          | true => rfl
          | false => exact absurd ⟨hr, hver⟩ hv
        unfold verifySigned at hver
        simp only [Bool.and_eq_true, decide_eq_true_eq] at hver
        refine ⟨hver.1, v, rfl, hp, ?_⟩
        cases hs : signedOk c v with
        | error e => rw [hs] at hver; cases hver.2
        | ok u => exact signedOk_owner hs


/-- A value of another key, correctly signed by its own owner (toy key 3). -/
def foreignAnswer : Bytes := writeValueResult (.found (Storage.Example.signed 30))

/-- A value that nobody signed. -/
def unsignedAnswer : Bytes :=
  writeValueResult (.found ⟨⟨⟨List.replicate 32 7, [1], 0⟩, .ed25519 (List.replicate 32 9), .anybody, []⟩,
    [1, 2, 3], 0, []⟩)

theorem foreign_accepted : (match parseValueResult Crypto.toy some foreignAnswer with
    | .value k t => decide (k.key = (Storage.Example.signed 30).key.key ∧ t = [9])
    | _ => false) = true := by decide +kernel

/-- C32 as stated is false: the key of a returned value is not compared with the key asked for, so an
answer with a correctly signed value of another key is handed to the caller. -/
theorem C32_full_false : ¬ C32_full Crypto.toy := by
  intro h
  have hf := foreign_accepted
  cases hp : parseValueResult Crypto.toy some foreignAnswer with
  | error => rw [hp] at hf; cases hf
  | nodes l => rw [hp] at hf; cases hf
  | value k t =>
    rw [hp] at hf
    have h1 := (h Bytes some ⟨[], [], 0⟩ foreignAnswer k t hp).1
    have h2 := (h Bytes some ⟨[], [], 1⟩ foreignAnswer k t hp).1
    rw [h1] at h2
    cases h2

theorem unsigned_accepted : (match parseValueResult Crypto.toy some unsignedAnswer with
    | .value k _ => decide (k.rule = .anybody ∧ k.signature = [])
    | _ => false) = true := by decide +kernel

/-- C32: nor are unsigned values refused: with the rules other than `signature` nothing is checked. -/
theorem C32_unsigned_values_partial :
    ∃ key t, parseValueResult Crypto.toy some unsignedAnswer = .value key t ∧
      ∀ v, v.key = key → ¬ SignedByOwner Crypto.toy v := by
  have hf := unsigned_accepted
  cases hp : parseValueResult Crypto.toy some unsignedAnswer with
  | error => rw [hp] at hf; cases hf
  | nodes l => rw [hp] at hf; cases hf
  | value k t =>
    rw [hp] at hf
    refine ⟨k, t, rfl, ?_⟩
    rintro v rfl ⟨key, pub, -, -, h1, -⟩
    simp only [decide_eq_true_eq] at hf
    rw [hf.2] at h1
    cases h1

/-- C32: what `find_address` returns: an address from one of the values and the owner of that value,
which is not compared with the peer asked for. -/
theorem C32_find_address_partial (c : Crypto) (build : Build) (now tolerance : Nat)
    (l : List (KeyDesc × AddrList)) (addr : SockAddr) (pub : c.Pub)
    (h : findAddress c build now tolerance l = some (addr, pub)) :
    ∃ key list, (key, list) ∈ l ∧ parse build now tolerance list = .ok addr ∧
      Receiver.fullId c key.id = some pub := by
  induction l with
  | nil => cases h
  | cons e l ih =>
    obtain ⟨key, list⟩ := e
    unfold findAddress at h
    split at h
    · rename_i h1 h2
      cases h
      exact ⟨key, list, List.mem_cons_self, h1, h2⟩
    · obtain ⟨k, li, h1, h2⟩ := ih h
      exact ⟨k, li, List.mem_cons_of_mem _ h1, h2⟩

/-- Hypotheses of `C32_signed_values_partial` are met by `foreignAnswer`. -/
example : ∃ key t, parseValueResult Crypto.toy some foreignAnswer = .value key t ∧
    ∃ v, v.key = key ∧ some v.value = some t ∧ SignedByOwner Crypto.toy v := by
  have hf : (match parseValueResult Crypto.toy some foreignAnswer with
    | .value k _ => decide (k.rule = .signature)
    | _ => false) = true := by decide +kernel
  cases hp : parseValueResult Crypto.toy some foreignAnswer with
  | error => rw [hp] at hf; cases hf
  | nodes l => rw [hp] at hf; cases hf
  | value k t =>
    rw [hp] at hf
    exact ⟨k, t, rfl, (C32_signed_values_partial Crypto.toy some foreignAnswer k t hp (by simpa using hf)).2⟩

/-! ### C56: the routing table and the storage of a node hold authentic records only -/

variable {c : Crypto}

/-- Something happening to the node: a query received, or a node record learned from an answer. -/
inductive Op (c : Crypto) where
  | query (order : List ONode → List ONode) (now now' : Nat) (channelKey : c.Sec) (q : Query)
  | learned (now : Nat) (channelKey : c.Sec) (node : DNode)
  | gc (shard : Bytes → Bool) (now : Nat)
  | status (peer : Bytes) (r : Outcome)

def step (o : Opts c) (s : State c) : Op c → State c
  | .query order now now' key q => (handle o order now now' key s q).1
  | .learned now key node => (addDhtPeer o now s node key).1
  | .gc shard now => { s with storage := gcPart s.storage shard now }
  | .status peer r => { s with penalties := queried s.penalties peer r }

def run (o : Opts c) (s : State c) (ops : List (Op c)) : State c := ops.foldl (step o) s

/-- `Node::new` (dht/node.rs:107-118). -/
def init (adnl : Node.State c) (localId : Bytes) (maxPeers : Nat) : State c :=
  ⟨adnl, PeersSet.withCapacity maxPeers, [], Buckets.new localId, []⟩

/-- The record is signed by the node itself, and stored under the hash of the node's key. -/
def NodeOk (c : Crypto) (localId id : Bytes) (n : DNode) : Prop :=
  ∃ key pub, n.id = .ed25519 key ∧ c.decodePub key = some pub ∧ id = Node.shortId c pub ∧
    id ≠ localId ∧ n.signature.length = 64 ∧
    c.verify pub (writeDNodeBoxed { n with signature := [] }) n.signature = true

structure Good (o : Opts c) (localId : Bytes) (s : State c) : Prop where
  loc : s.buckets.localId = localId
  buckets : Buckets.Ok s.buckets
  nodes : ∀ j id n, (id, n) ∈ s.buckets.bucket j → NodeOk c localId id n
  storage : AllOk c o.storage s.storage

theorem addDhtPeer_good {o : Opts c} {localId : Bytes} {s : State c} (h : Good o localId s) (now : Nat)
    (peer : DNode) (key : c.Sec) : Good o localId (addDhtPeer o now s peer key).1 := by
  unfold addDhtPeer
  cases hf : Receiver.fullId c peer.id with
  | none => exact h
  | some pub =>
    simp only
    by_cases hv : verifySig c pub (writeDNodeBoxed { peer with signature := [] }) peer.signature = false
    · rw [if_pos hv]; exact h
    rw [if_neg hv]
    cases hp : parse o.adnl.build now o.adnl.clockTolerance peer.addrList with
    | listIsEmpty => exact h
    | tooNew => exact h
    | expired => exact h
    | panic => exact h
    | ok addr =>
      simp only
      cases ha : Node.addPeer o.adnl s.adnl s.buckets.localId (Node.shortId c pub) addr pub key with
      | mk adnl r =>
        cases r with
        | peersNotFound => exact h
        | no => exact h
        | yes =>
          simp only
          by_cases hi : (PeersSet.insert s.known (Node.shortId c pub)).2 = true
          · rw [if_pos hi]
            have hne : Node.shortId c pub ≠ localId := by
              intro e
              rw [Node.addPeer, if_pos (.inl (e.trans h.loc.symm))] at ha
              cases ha
            refine ⟨h.loc, Buckets.insert_ok h.buckets _ _, ?_, h.storage⟩
            intro j id n hm
            simp only [Buckets.insert] at hm
            have hnew : NodeOk c localId (Node.shortId c pub) peer := by
              have hv' : verifySig c pub (writeDNodeBoxed { peer with signature := [] }) peer.signature
                  = true := by simpa using hv
              simp only [verifySig, Bool.and_eq_true, decide_eq_true_eq] at hv'
              cases hk : peer.id with
              | ed25519 k =>
                rw [hk] at hf
                exact ⟨k, pub, hk, hf, rfl, hne, hv'.1, hv'.2⟩
              | aes k => rw [hk] at hf; cases hf
              | overlay k => rw [hk] at hf; cases hf
              | unenc k => rw [hk] at hf; cases hf
            split at hm
            · rcases Buckets.insertInto_mem hm with hm | hm
              · exact h.nodes _ _ _ hm
              · cases hm; exact hnew
            · exact h.nodes _ _ _ hm
          · rw [if_neg hi]
            exact ⟨h.loc, h.buckets, h.nodes, h.storage⟩

theorem handle_good {o : Opts c} {localId : Bytes} (order : List ONode → List ONode) (now now' : Nat)
    (key : c.Sec) (q : Query) : ∀ {s : State c}, Good o localId s →
      Good o localId (handle o order now now' key s q).1 := by
  induction q with
  | ping r => intro s h; exact h
  | findNode k n => intro s h; exact h
  | findValue k n => intro s h; unfold handle; cases findValue o now s k n <;> exact h
  | getSignedAddressList => intro s h; exact h
  | store v =>
    intro s h
    have := step_allOk h.storage (.insert order now now' v)
    simp only [Storage.step] at this
    unfold handle
    cases hi : Storage.insert c o.storage order now now' s.storage v with
    | mk st r =>
      rw [hi] at this
      cases r <;> exact ⟨h.loc, h.buckets, h.nodes, this⟩
  | withNode node q ih =>
    intro s h
    have h1 := addDhtPeer_good h now node key
    unfold handle
    cases ha : addDhtPeer o now s node key with
    | mk s' r =>
      rw [ha] at h1
      cases r with
      | error => exact h1
      | none => exact ih h1
      | some id => exact ih h1

theorem step_good {o : Opts c} {localId : Bytes} {s : State c} (h : Good o localId s) (op : Op c) :
    Good o localId (step o s op) := by
  cases op with
  | query order now now' key q => exact handle_good order now now' key q h
  | learned now key node => exact addDhtPeer_good h now node key
  | gc shard now => exact ⟨h.loc, h.buckets, h.nodes, step_allOk h.storage (.gc shard now)⟩
  | status peer r => exact ⟨h.loc, h.buckets, h.nodes, h.storage⟩

theorem run_good {o : Opts c} {localId : Bytes} (ops : List (Op c)) : ∀ {s : State c},
    Good o localId s → Good o localId (run o s ops) := by
  induction ops with
  | nil => intro s h; exact h
  | cons op ops ih => intro s h; exact ih (step_good h op)

theorem init_good (o : Opts c) (adnl : Node.State c) (localId : Bytes) (maxPeers : Nat) :
    Good o localId (init adnl localId maxPeers) :=
  ⟨rfl, Buckets.new_ok localId, fun _ _ _ h => absurd h List.not_mem_nil,
    fun _ _ h => absurd h List.not_mem_nil⟩

/-- C56: whatever queries and answers a node receives, every record in its routing table is signed by
the node it describes, stored under the hash of that node's key in the right bucket, once, and is not
about the node itself; and every stored value is authentic. -/
theorem C56_routing_table_is_authentic (o : Opts c) (adnl : Node.State c) (localId : Bytes)
    (maxPeers : Nat) (ops : List (Op c)) :
    (∀ j id n, (id, n) ∈ (run o (init adnl localId maxPeers) ops).buckets.bucket j →
      NodeOk c localId id n ∧ Buckets.affinity localId id = j) ∧
    (∀ j, (AMap.keys ((run o (init adnl localId maxPeers) ops).buckets.bucket j)).Nodup) ∧
    (∀ k e, (run o (init adnl localId maxPeers) ops).storage.get k = some e →
      EntryOk c o.storage k e) := by
  have h := run_good ops (init_good o adnl localId maxPeers)
  refine ⟨fun j id n hm => ⟨h.nodes j id n hm, ?_⟩, h.buckets.nodup, ?_⟩
  · have := h.buckets.place j id n hm
    rwa [h.loc] at this
  · exact fun k e hg => h.storage k e (AMap.mem_of_get hg)

/-- C56: so the table is one to which C26 applies: the nodes answered to a find-node query are
distinct, signed by themselves and strictly closer to the target than the node itself. -/
theorem C56_find_node_answers (hc : c.Lawful) (o : Opts c) (adnl : Node.State c) (localId : Bytes)
    (hl : localId.length = 32) (maxPeers : Nat) (ops : List (Op c)) (key : Bytes) (hk : key.length = 32)
    (k : Nat) (n : DNode) (h : n ∈ findNode (run o (init adnl localId maxPeers) ops) key k) :
    ∃ id, NodeOk c localId id n ∧ Xor.dist id key < Xor.dist localId key := by
  have hg := run_good ops (init_good o adnl localId maxPeers)
  generalize run o (init adnl localId maxPeers) ops = s at h hg
  have hr : Buckets.Reached s.buckets := by
    refine ⟨hg.buckets, by rw [hg.loc]; exact hl, ?_⟩
    intro j id n hm
    obtain ⟨key, pub, -, -, h3, h4, -⟩ := hg.nodes j id n hm
    rw [hg.loc]
    exact ⟨by rw [h3]; exact hc.sha_length _, h4⟩
  obtain ⟨⟨id, n'⟩, hm, rfl⟩ := List.mem_map.mp h
  obtain ⟨h1, h2⟩ := Buckets.C26_answers_are_stored_and_closer hr key hk k id n' hm
  rw [hg.loc] at h2
  exact ⟨id, hg.nodes _ _ _ (AMap.mem_of_get h1), h2⟩

/-! ### Toy node -/

namespace Example

abbrev T := Crypto.toy

def localId : Bytes := Node.shortId T (100 : UInt8)

def adnlOpts : Node.Opts T :=
  ⟨.release, none, 1000, ⟨1, 2, 3, 4, 5⟩, 1000, 60, false, true, fun _ => none, none⟩

def o : Opts T := ⟨adnlOpts, ⟨127, 15⟩, 20⟩

def s0 : State T := init ⟨[(localId, [])], [], 0, [], []⟩ localId 100

/-- A record of the toy node `k`. -/
def node (k : UInt8) (version : Nat) : DNode :=
  let n : DNode := ⟨.ed25519 (T.pubBytes k), ⟨some ⟨77, 88⟩, 1, 1, 0⟩, version, []⟩
  { n with signature := T.sign k (writeDNodeBoxed n) }

def learn (k : UInt8) (version : Nat) : Op T := .learned 1000 (7 : UInt8) (node k version)

end Example

/-- Non-vacuity of C56: two nodes are stored. -/
example : ((run Dht.Example.o Dht.Example.s0 [Dht.Example.learn 1 1, Dht.Example.learn 2 1]).buckets.bucket
    (Buckets.affinity Dht.Example.localId (Node.shortId Crypto.toy (2 : UInt8)))).get
      (Node.shortId Crypto.toy (2 : UInt8)) = some (Dht.Example.node 2 1) := by decide +kernel

/-! ### C57: answers to find-value queries -/

/-- C57 as stated: if the value is not stored, no node left out of the answer is closer to the key than
one in the answer. -/
def C57_full (c : Crypto) : Prop :=
  ∀ (o : Opts c) (adnl : Node.State c) (localId : Bytes) (maxPeers : Nat) (ops : List (Op c)) (now k : Nat)
    (key : Bytes) (l : List DNode),
    findValue o now (run o (init adnl localId maxPeers) ops) key k = some (.notFound l) →
    ∀ id n id' n', Buckets.lookup (run o (init adnl localId maxPeers) ops).buckets id = some n →
      Buckets.lookup (run o (init adnl localId maxPeers) ops).buckets id' = some n' →
      n ∈ l → n' ∉ l → Xor.dist id key ≤ Xor.dist id' key

theorem closest_left_out :
    (match findValue Dht.Example.o 1000
        (run Dht.Example.o Dht.Example.s0 [Dht.Example.learn 1 1, Dht.Example.learn 4 1])
        (Node.shortId Crypto.toy (4 : UInt8)) 1 with
      | some (.notFound l) => decide (l = [Dht.Example.node 1 1])
      | _ => false) = true ∧
    Buckets.lookup (run Dht.Example.o Dht.Example.s0 [Dht.Example.learn 1 1, Dht.Example.learn 4 1]).buckets
      (Node.shortId Crypto.toy (1 : UInt8)) = some (Dht.Example.node 1 1) ∧
    Buckets.lookup (run Dht.Example.o Dht.Example.s0 [Dht.Example.learn 1 1, Dht.Example.learn 4 1]).buckets
      (Node.shortId Crypto.toy (4 : UInt8)) = some (Dht.Example.node 4 1) ∧
    Dht.Example.node 4 1 ≠ Dht.Example.node 1 1 ∧
    ¬ Xor.dist (Node.shortId Crypto.toy (1 : UInt8)) (Node.shortId Crypto.toy (4 : UInt8)) ≤
      Xor.dist (Node.shortId Crypto.toy (4 : UInt8)) (Node.shortId Crypto.toy (4 : UInt8)) := by
  decide +kernel

/-- C57 as stated is false: asked for the key that equals the id of a node it knows, the node answers
with another node that is farther away. -/
theorem C57_full_false : ¬ C57_full Crypto.toy := by
  intro h
  obtain ⟨h1, h2, h3, h4, h5⟩ := closest_left_out
  cases hf : findValue Dht.Example.o 1000
      (run Dht.Example.o Dht.Example.s0 [Dht.Example.learn 1 1, Dht.Example.learn 4 1])
      (Node.shortId Crypto.toy (4 : UInt8)) 1 with
  | none => rw [hf] at h1; cases h1
  | some r =>
    rw [hf] at h1
    cases r with
    | found v => cases h1
    | notFound l =>
      have hl : l = [Dht.Example.node 1 1] := by simpa using h1
      subst hl
      exact h5 (h Dht.Example.o ⟨[(Dht.Example.localId, [])], [], 0, [], []⟩ Dht.Example.localId 100 _
        1000 1 _ _ hf _ _ _ _ h2 h3 List.mem_cons_self (by simpa using h4))

/-- C57: what is true: the answer consists of known nodes, at most `k` of them, and of all of them if there
are fewer than `k`. -/
theorem C57_answer_partial (o : Opts c) (now : Nat) (s : State c) (key : Bytes) (k : Nat) (l : List DNode)
    (h : findValue o now s key k = some (.notFound l)) :
    k ≤ o.maxK ∧ l.length ≤ k ∧ (∀ n ∈ l, ∃ j id, j < 256 ∧ (id, n) ∈ s.buckets.bucket j) ∧
    (l.length < k → ∀ j id n, j < 256 → (id, n) ∈ s.buckets.bucket j → n ∈ l) ∧
    ∀ v, Storage.getRef s.storage key now ≠ some v := by
  unfold findValue at h
  split at h
  · cases h
  rename_i hk
  cases hg : Storage.getRef s.storage key now with
  | some v => rw [hg] at h; cases h
  | none =>
    rw [hg] at h
    cases h
    have hp := Buckets.pushAll_eq k s.buckets.bucket [] (List.range 256) (by simp; omega)
    simp only [List.nil_append] at hp
    have e : firstNodes s k =
        (((List.range 256).flatMap s.buckets.bucket).take (max k 1)).map (·.2) := by
      rw [firstNodes, hp]
    rw [e]
    refine ⟨by omega, ?_, ?_, ?_, fun v => by simp⟩
    · rw [List.length_map, List.length_take]; omega
    · intro n hn
      obtain ⟨⟨id, n'⟩, hm, rfl⟩ := List.mem_map.mp hn
      obtain ⟨j, hj, hm⟩ := List.mem_flatMap.mp (List.mem_of_mem_take hm)
      exact ⟨j, id, List.mem_range.mp hj, hm⟩
    · intro hlen j id n hj hm
      rw [List.length_map, List.length_take] at hlen
      rw [List.take_of_length_le (by omega)]
      exact List.mem_map.mpr ⟨(id, n), List.mem_flatMap.mpr ⟨j, List.mem_range.mpr hj, hm⟩, rfl⟩

example : ∃ l, findValue Dht.Example.o 1000 Dht.Example.s0 [] 1 = some (.notFound l) := ⟨_, rfl⟩

/-! ### C58: newer records -/

/-- C58 as stated: after a record was accepted the table holds one at least as new for that node. -/
def C58_full (c : Crypto) : Prop :=
  ∀ (o : Opts c) (adnl : Node.State c) (localId : Bytes) (maxPeers : Nat) (ops : List (Op c)) (now : Nat)
    (key : c.Sec) (peer : DNode) (id : Bytes),
    (addDhtPeer o now (run o (init adnl localId maxPeers) ops) peer key).2 = .some id →
    ∃ n, Buckets.lookup (addDhtPeer o now (run o (init adnl localId maxPeers) ops) peer key).1.buckets id
      = some n ∧ peer.version ≤ n.version

theorem newer_ignored :
    (addDhtPeer Dht.Example.o 1000 (run Dht.Example.o Example.s0 [Example.learn 1 1]) (Example.node 1 2)
      (7 : UInt8)).2 = .some (Node.shortId Example.T (1 : UInt8)) ∧
    (Buckets.lookup (addDhtPeer Dht.Example.o 1000 (run Dht.Example.o Example.s0 [Example.learn 1 1])
      (Example.node 1 2) (7 : UInt8)).1.buckets (Node.shortId Example.T (1 : UInt8))).map (·.version) =
        some 1 := by decide +kernel

/-- C58 as stated is false: a newer record of a node already known is accepted but not stored. -/
theorem C58_full_false : ¬ C58_full Crypto.toy := by
  intro h
  obtain ⟨h1, h2⟩ := newer_ignored
  obtain ⟨n, h3, h4⟩ := h Dht.Example.o ⟨[(Example.localId, [])], [], 0, [], []⟩ Example.localId 100
    [Example.learn 1 1] 1000 (7 : UInt8) (Example.node 1 2) _ h1
  have h5 : Buckets.lookup (addDhtPeer Dht.Example.o 1000 (run Dht.Example.o Example.s0 [Example.learn 1 1])
      (Example.node 1 2) (7 : UInt8)).1.buckets (Node.shortId Example.T (1 : UInt8)) = some n := h3
  rw [h5] at h2
  simp only [Option.map_some, Option.some.injEq] at h2
  rw [h2] at h4
  exact absurd h4 (by decide)

/-- C58: what is true: the record of a node not among the known peers is stored, unless the table
already has one as new (of a peer that dropped out of the known peers). -/
theorem C58_new_peers_partial (o : Opts c) (now : Nat) (s : State c) (peer : DNode) (key : c.Sec)
    (id : Bytes) (h : (addDhtPeer o now s peer key).2 = .some id)
    (hn : (PeersSet.insert s.known id).2 = true) :
    ∃ n, Buckets.lookup (addDhtPeer o now s peer key).1.buckets id = some n ∧
      peer.version ≤ n.version := by
  unfold addDhtPeer at h ⊢
  cases hf : Receiver.fullId c peer.id with
  | none => rw [hf] at h; cases h
  | some pub =>
    rw [hf] at h
    simp only at h ⊢
    by_cases hv : verifySig c pub (writeDNodeBoxed { peer with signature := [] }) peer.signature = false
    · rw [if_pos hv] at h; cases h
    rw [if_neg hv] at h ⊢
    cases hp : parse o.adnl.build now o.adnl.clockTolerance peer.addrList with
    | listIsEmpty => rw [hp] at h; cases h
    | tooNew => rw [hp] at h; cases h
    | expired => rw [hp] at h; cases h
    | panic => rw [hp] at h; cases h
    | ok addr =>
      rw [hp] at h
      simp only at h ⊢
      cases ha : Node.addPeer o.adnl s.adnl s.buckets.localId (Node.shortId c pub) addr pub key with
      | mk adnl r =>
        rw [ha] at h
        cases r with
        | peersNotFound => cases h
        | no => cases h
        | yes =>
          simp only at h ⊢
          by_cases hi : (PeersSet.insert s.known (Node.shortId c pub)).2 = true
          · rw [if_pos hi] at h ⊢
            cases h
            have := Buckets.insert_lookup s.buckets (Node.shortId c pub) (Node.shortId c pub) peer
            rw [if_pos rfl] at this
            refine ⟨_, this, ?_⟩
            cases Buckets.lookup s.buckets (Node.shortId c pub) with
            | none => exact Nat.le_refl _
            | some old =>
              simp only
              split
              · exact Nat.le_refl _
              · omega
          · rw [if_neg hi] at h
            cases h
            exact absurd hn hi

-- C58_new_peers_partial: a node that was not known
example := C58_new_peers_partial Dht.Example.o 1000 Dht.Example.s0 (Dht.Example.node 2 1) (7 : UInt8)
  (Node.shortId Crypto.toy (2 : UInt8)) (by decide +kernel) (by decide +kernel)

end Verif.Dht
