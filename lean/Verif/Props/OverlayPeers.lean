import Verif.Proofs.OverlayPeers
import Verif.Proofs.Encryption

/-!
# C49, C50, C53: peers of a public overlay

`Genuine`, `Welcome`, `offers`, `Sampled` (Proofs/OverlayPeers) are the vocabulary: a record signed for
the overlay by the key it names; a genuine record of another node that the ADNL node accepts; all records
offered to `add_public_peer(s)` in a run; random choices are choices from the right pool.
-/
namespace Verif.Props
open Verif.Overlay Verif.AdnlProto Verif.DhtProto Verif.Spec

variable {c : Crypto}

/-! ## C49 -/

/-- C49: a stored record was offered, is genuine, is not of the local node, and no welcome record of that
node was newer; and of every welcome node a record is stored. -/
theorem C49_stored (e : PEnv c) (peers ch0 : List Bytes) (as : List PAction) :
    let s := prun e (PState.init e peers ch0) as
    (∀ id n, s.nodes.get id = some n → id ≠ e.localId ∧
      ∃ addr pub, (addr, n) ∈ offers as ∧ Genuine c e.overlay n pub ∧ Node.shortId c pub = id ∧
      ∀ addr' m pub', (addr', m) ∈ offers as → Welcome e addr' m pub' → Node.shortId c pub' = id →
        m.version ≤ n.version) ∧
    (∀ addr m pub, (addr, m) ∈ offers as → Welcome e addr m pub →
      ∃ n, s.nodes.get (Node.shortId c pub) = some n) := by
  intro s
  have h := nodesInv_run e peers ch0 as
  refine ⟨fun id n hn => ?_, h.present⟩
  obtain ⟨addr, pub, hm, hw, hid, hmax⟩ := h.stored id n hn
  exact ⟨hid ▸ hw.2.1, addr, pub, hm, hw.1, hid, hmax⟩

/-- C49: who is told that a peer was added, and who is not: exactly the welcome ones are reported and
become active. -/
theorem C49_added (e : PEnv c) (s : PState) (hs : SetsInv e s) (addr : Address.SockAddr) (n : ONode) :
    (∀ pub, Welcome e addr n pub → (addPublicPeer e s addr n).2 = .ok (some (Node.shortId c pub)) ∧
      isActive (addPublicPeer e s addr n).1 (Node.shortId c pub) = true) ∧
    ((∀ pub, ¬ Welcome e addr n pub) → (addPublicPeer e s addr n).2 = .ok none ∧
      { (addPublicPeer e s addr n).1 with adnl := s.adnl } = s) := by
  rcases addPublicPeer_cases e s addr n with ⟨pub, t, hw, heq⟩ | ⟨hnw, t, heq⟩
  · refine ⟨fun q hq => ?_, fun h => absurd hw (h pub)⟩
    obtain rfl := hq.1.unique hw.1
    rw [heq]
    refine ⟨rfl, ?_⟩
    have hk := mem_insert_self hs.known (Node.shortId c q)
    have hc := (contains_iff (PeersSet.insert_spec hs.known (Node.shortId c q)).1 _).mpr hk
    have hi : Node.shortId c q ∉ s.ignored.erase (Node.shortId c q) := fun h => by
      have := (hs.ignored.mem_erase_iff).mp h
      exact this.1 rfl
    show (PeersSet.contains (PeersSet.insert s.known (Node.shortId c q)).1 (Node.shortId c q) &&
      !decide (Node.shortId c q ∈ s.ignored.erase (Node.shortId c q))) = true
    simp [hc, hi]
  · refine ⟨fun q hq => absurd hq (hnw q), fun _ => ?_⟩
    rw [heq]
    exact ⟨rfl, rfl⟩

/-- Everyone who may be known or a neighbour: given at the start, or once welcomed. -/
def Member (e : PEnv c) (peers : List Bytes) (l : List (Address.SockAddr × ONode)) (x : Bytes) : Prop :=
  x ∈ peers ∨ ∃ addr n pub, (addr, n) ∈ l ∧ Welcome e addr n pub ∧ Node.shortId c pub = x

theorem Member.mono {e : PEnv c} {peers : List Bytes} {l l' : List (Address.SockAddr × ONode)} {x : Bytes}
    (h : Member e peers l x) (hl : ∀ y ∈ l, y ∈ l') : Member e peers l' x := by
  rcases h with h | ⟨a, n, p, h1, h2, h3⟩
  · exact .inl h
  · exact .inr ⟨a, n, p, hl _ h1, h2, h3⟩

theorem mem_foldl_distinct {α : Type} [DecidableEq α] {cap : Nat} {x : α} (ps : List α) : ∀ q : List α,
    x ∈ ps.foldl (fun q x => if q.length < cap ∧ x ∉ q then q ++ [x] else q) q → x ∈ q ∨ x ∈ ps := by
  induction ps with
  | nil => intro q h; exact .inl h
  | cons p ps ih =>
    intro q h
    rcases ih _ h with h | h
    · simp only [] at h
      split at h
      · rcases List.mem_append.mp h with h | h
        · exact .inl h
        · exact .inr (by simp [List.mem_singleton.mp h])
      · exact .inl h
    · exact .inr (by simp [h])

theorem mem_firstDistinct {α : Type} [DecidableEq α] {cap : Nat} {x : α} (ps : List α)
    (h : x ∈ firstDistinct cap ps) : x ∈ ps := by
  rcases mem_foldl_distinct ps [] h with h | h
  · cases h
  · exact h

theorem init_known (e : PEnv c) (peers ch : List Bytes) :
    (PState.init e peers ch).known = PeersSet.withPeers peers maxOverlayPeers := by
  unfold PState.init
  simp only []
  split <;> rfl

theorem mem_withPeers {peers : List Bytes} {k : Nat} {x : Bytes}
    (hx : x ∈ (PeersSet.withPeers peers k).index) : x ∈ peers := by
  have := (PeersSet.withPeers_spec peers k).2.2
  refine mem_firstDistinct (cap := max 1 k) peers ?_
  rw [← this]
  exact (PeersSet.queue_perm _).mem_iff.mpr hx

/-- The choices made when the overlay is created. -/
def SampledInit (e : PEnv c) (peers ch : List Bytes) : Prop :=
  peers ≠ [] → IsSample ch (PeersSet.withPeers peers maxOverlayPeers).index e.maxNeighbours

theorem init_neighbours {e : PEnv c} {peers ch : List Bytes} (hch : SampledInit e peers ch) {x : Bytes}
    (hx : x ∈ (PState.init e peers ch).neighbours.index) :
    x ∈ (PeersSet.withPeers peers maxOverlayPeers).index := by
  unfold PState.init at hx
  simp only [] at hx
  split at hx
  · simp [PeersSet.withCapacity] at hx
  · rename_i hp
    have h0 : SetsInv e (⟨[], [], [], PeersSet.withPeers peers maxOverlayPeers,
        PeersSet.withCapacity e.maxNeighbours, []⟩ : PState) := by
      have := PeersSet.withPeers_spec peers maxOverlayPeers
      exact ⟨this.1, PeersSet.withCapacity_inv _, this.2.1.trans (by decide), rfl, List.nodup_nil⟩
    rcases mem_updateNeighbours h0 hx with h | h
    · simp [PeersSet.withCapacity] at h
    · exact (hch hp).mem h.1

theorem removePublicPeer_eq (e : PEnv c) (s : PState) (p : Bytes) (ch : List Bytes) :
    (removePublicPeer e s p ch).1 =
      if p ∈ s.ignored then s else
      if PeersSet.contains s.neighbours p then
        updateNeighbours { s with ignored := p :: s.ignored } ch e.maxNeighbours
      else { s with ignored := p :: s.ignored } := by
  unfold removePublicPeer
  split
  · rfl
  · simp only []

theorem drawn_remove {e : PEnv c} {s : PState} (h : SetsInv e s) {p : Bytes} {ch : List Bytes}
    (hd : Drawn e s (.remove p ch)) {x : Bytes}
    (hx : x ∈ (removePublicPeer e s p ch).1.neighbours.index) :
    x ∈ s.neighbours.index ∨ (x ∈ s.known.index ∧ x ∉ s.ignored ∧ x ≠ p) := by
  rw [removePublicPeer_eq] at hx
  split at hx
  · exact .inl hx
  · rename_i hp
    split at hx
    · rename_i hc
      have h0 : SetsInv e { s with ignored := p :: s.ignored } :=
        ⟨h.1, h.2, h.3, h.4, List.nodup_cons.mpr ⟨hp, h.5⟩⟩
      rcases mem_updateNeighbours h0 hx with h' | h'
      · exact .inl h'
      · refine .inr ⟨(hd hp ((contains_iff h.neigh p).mp hc)).mem h'.1, ?_, ?_⟩
        · intro hi; exact h'.2 (by simp [hi])
        · intro hi; exact h'.2 (by simp [hi])
    · exact .inl hx

theorem removePublicPeer_known (e : PEnv c) (s : PState) (p : Bytes) (ch : List Bytes) :
    (removePublicPeer e s p ch).1.known = s.known := by
  rw [removePublicPeer_eq]
  split
  · rfl
  · split <;> rfl

/-- C49: every known peer and every neighbour was given at the start or was welcomed. -/
theorem C49_members (e : PEnv c) (peers ch0 : List Bytes) (as : List PAction)
    (h0 : SampledInit e peers ch0) (hs : Sampled e (PState.init e peers ch0) as) (x : Bytes)
    (hx : x ∈ (prun e (PState.init e peers ch0) as).known.index ∨
      x ∈ (prun e (PState.init e peers ch0) as).neighbours.index) :
    Member e peers (offers as) x := by
  have := prun_inv_sampled (e := e)
    (fun s l => SetsInv e s ∧ (∀ x, x ∈ s.known.index ∨ x ∈ s.neighbours.index → Member e peers l x))
    (by
      rintro s l addr n ⟨hi, hm⟩
      refine ⟨setsInv_add hi addr n, ?_⟩
      intro x hx
      rcases addPublicPeer_cases e s addr n with ⟨pub, t, hw, heq⟩ | ⟨hnw, t, heq⟩
      · rw [heq] at hx
        have hnew : Member e peers (l ++ [(addr, n)]) (Node.shortId c pub) :=
          .inr ⟨addr, n, pub, by simp, hw, rfl⟩
        have hold : ∀ y, y ∈ s.known.index ∨ y ∈ s.neighbours.index → Member e peers (l ++ [(addr, n)]) y :=
          fun y hy => (hm y hy).mono (fun z hz => by simp [hz])
        rcases hx with hx | hx
        · rcases mem_insert hi.known (p := Node.shortId c pub) hx with h | h
          · exact hold x (.inl h)
          · rw [h]; exact hnew
        · have hx' : x ∈ (if PeersSet.isFull s.neighbours = true then s.neighbours
              else (PeersSet.insert s.neighbours (Node.shortId c pub)).1).index := hx
          split at hx'
          · exact hold x (.inr hx')
          · rcases mem_insert hi.neigh hx' with h | h
            · exact hold x (.inr h)
            · rw [h]; exact hnew
      · rw [heq] at hx
        exact (hm x hx).mono (fun z hz => by simp [hz]))
    (by
      rintro s l a ⟨hi, hm⟩ hd h1 h2
      refine ⟨setsInv_other hi a h1 h2, ?_⟩
      intro x hx
      cases a with
      | add addr n => exact absurd rfl (h1 addr n)
      | addMany k => exact absurd rfl (h2 k)
      | remove p ch =>
        simp only [pstep] at hx
        rcases hx with hx | hx
        · rw [removePublicPeer_known] at hx; exact hm x (.inl hx)
        · rcases drawn_remove hi hd hx with h | h
          · exact hm x (.inr h)
          · exact hm x (.inl h.1)
      | refresh ch =>
        rcases hx with hx | hx
        · exact hm x (.inl hx)
        · rcases mem_updateNeighbours hi hx with h | h
          · exact hm x (.inr h)
          · exact hm x (.inl (IsSample.mem hd h.1))
      | exchange k now ch => exact hm x hx
      | take => exact hm x hx
      | adnl t => exact hm x hx)
    as (PState.init e peers ch0) []
    ⟨setsInv_init e peers ch0, fun y hy => .inl (by
      rcases hy with hy | hy
      · rw [init_known] at hy; exact mem_withPeers hy
      · exact mem_withPeers (init_neighbours h0 hy))⟩ hs
  exact (List.nil_append (offers as) ▸ this).2 x hx

/-- The records received in `getRandomPeers` queries since the last `take_new_peers`. -/
def heard (acc : List ONode) : List PAction → List ONode
  | [] => acc
  | .exchange l _ _ :: as => heard (acc ++ l) as
  | .take :: as => heard [] as
  | _ :: as => heard acc as

/-- A genuine record under another key than the own one. -/
def Foreign (e : PEnv c) (n : ONode) : Prop :=
  n.id ≠ .ed25519 (c.pubBytes (c.pubOf e.key)) ∧ ∃ pub, Genuine c e.overlay n pub

theorem filterNodes_mem {e : PEnv c} {l : List ONode} {n : ONode} :
    n ∈ filterNodes e l ↔ n ∈ l ∧ Foreign e n := by
  unfold filterNodes Foreign
  rw [List.mem_filter, Bool.and_eq_true, verifyONode_iff]
  refine and_congr_right fun _ => ?_
  constructor
  · rintro ⟨h1, h2⟩
    refine ⟨?_, h2⟩
    intro h
    rw [h] at h1
    simp at h1
  · rintro ⟨h1, pub, h2⟩
    refine ⟨?_, pub, h2⟩
    have := h2.2.1
    cases hid : n.id with
    | ed25519 k =>
      simp only [decide_eq_true_eq]
      intro hk
      exact h1 (by rw [hid, hk])
    | aes k => rw [hid] at this; cases this
    | unenc k => rw [hid] at this; cases this
    | overlay k => rw [hid] at this; cases this

/-- What `received_peers` contains, by what was heard. -/
structure ReceivedInv (e : PEnv c) (m : AMap PubKey ONode) (l : List ONode) : Prop where
  stored : ∀ k n, m.get k = some n → n ∈ l ∧ n.id = k ∧ Foreign e n ∧
    ∀ n' ∈ l, n'.id = k → Foreign e n' → n'.version ≤ n.version
  present : ∀ n ∈ l, Foreign e n → ∃ n', m.get n.id = some n'

theorem ReceivedInv.skip {e : PEnv c} {m : AMap PubKey ONode} {l : List ONode} (h : ReceivedInv e m l)
    {n : ONode} (hn : ¬ Foreign e n) : ReceivedInv e m (l ++ [n]) := by
  constructor
  · intro k n' hn'
    obtain ⟨h1, h2, h3, h4⟩ := h.stored k n' hn'
    refine ⟨by simp [h1], h2, h3, fun x hx hid hf => ?_⟩
    rcases List.mem_append.mp hx with hx | hx
    · exact h4 x hx hid hf
    · rw [List.mem_singleton.mp hx] at hf; exact absurd hf hn
  · intro x hx hf
    rcases List.mem_append.mp hx with hx | hx
    · exact h.present x hx hf
    · rw [List.mem_singleton.mp hx] at hf; exact absurd hf hn

theorem ReceivedInv.store {e : PEnv c} {m : AMap PubKey ONode} {l : List ONode} (h : ReceivedInv e m l)
    {n : ONode} (hn : Foreign e n) : ReceivedInv e (storeNewer m n.id n) (l ++ [n]) := by
  constructor
  · intro k n' hn'
    rw [storeNewer_get] at hn'
    by_cases hk : k = n.id
    · rw [if_pos hk] at hn'
      cases hold : m.get n.id with
      | none =>
        simp only [hold, Option.some.injEq] at hn'
        subst hn'
        refine ⟨by simp, hk.symm, hn, fun x hx hid hf => ?_⟩
        rcases List.mem_append.mp hx with hx | hx
        · obtain ⟨y, hy⟩ := h.present x hx hf
          rw [hid, hk, hold] at hy
          cases hy
        · rw [List.mem_singleton.mp hx]; exact Nat.le_refl _
      | some old =>
        simp only [hold] at hn'
        obtain ⟨h1, h2, h3, h4⟩ := h.stored _ _ hold
        by_cases hlt : old.version < n.version
        · rw [if_pos hlt, Option.some.injEq] at hn'
          subst hn'
          refine ⟨by simp, hk.symm, hn, fun x hx hid hf => ?_⟩
          rcases List.mem_append.mp hx with hx | hx
          · have := h4 x hx (hid.trans hk) hf
            omega
          · rw [List.mem_singleton.mp hx]; exact Nat.le_refl _
        · rw [if_neg hlt, Option.some.injEq] at hn'
          subst hn'
          refine ⟨by simp [h1], h2.trans hk.symm, h3, fun x hx hid hf => ?_⟩
          rcases List.mem_append.mp hx with hx | hx
          · exact h4 x hx (hid.trans hk) hf
          · rw [List.mem_singleton.mp hx]; omega
    · rw [if_neg hk] at hn'
      obtain ⟨h1, h2, h3, h4⟩ := h.stored _ _ hn'
      refine ⟨by simp [h1], h2, h3, fun x hx hid hf => ?_⟩
      rcases List.mem_append.mp hx with hx | hx
      · exact h4 x hx hid hf
      · rw [List.mem_singleton.mp hx] at hid; exact absurd hid.symm hk
  · intro x hx hf
    rw [storeNewer_get]
    split
    · split
      · split <;> exact ⟨_, rfl⟩
      · exact ⟨_, rfl⟩
    · rename_i hne
      rcases List.mem_append.mp hx with hx | hx
      · exact h.present x hx hf
      · rw [List.mem_singleton.mp hx] at hne; exact absurd rfl hne

theorem ReceivedInv.batch {e : PEnv c} (k : List ONode) : ∀ {m : AMap PubKey ONode} {l : List ONode},
    ReceivedInv e m l →
    ReceivedInv e ((filterNodes e k).foldl (fun m n => storeNewer m n.id n) m) (l ++ k) := by
  induction k with
  | nil => intro m l h; simpa [filterNodes] using h
  | cons n k ih =>
    intro m l h
    by_cases hf : Foreign e n
    · have hfn : filterNodes e (n :: k) = n :: filterNodes e k := by
        have : n ∈ filterNodes e [n] := filterNodes_mem.mpr ⟨by simp, hf⟩
        unfold filterNodes at this ⊢
        rw [List.filter_cons, if_pos]
        exact (List.mem_filter.mp this).2
      rw [hfn]
      have := ih (h.store hf)
      simpa using this
    · have hfn : filterNodes e (n :: k) = filterNodes e k := by
        have : n ∉ filterNodes e [n] := fun h => hf (filterNodes_mem.mp h).2
        unfold filterNodes at this ⊢
        rw [List.filter_cons, if_neg]
        intro hp
        exact this (List.mem_filter.mpr ⟨by simp, hp⟩)
      rw [hfn]
      have := ih (h.skip hf)
      simpa using this

theorem add_received (e : PEnv c) (s : PState) (addr : Address.SockAddr) (n : ONode) :
    (addPublicPeer e s addr n).1.received = s.received := by
  rcases addPublicPeer_cases e s addr n with ⟨pub, t, _, heq⟩ | ⟨_, t, heq⟩ <;> rw [heq]
  rfl

theorem addMany_received (e : PEnv c) (l : List (Address.SockAddr × ONode)) : ∀ s : PState,
    (addPublicPeers e s l).1.received = s.received := by
  intro s
  rw [(addPublicPeers_eq e l s).1]
  induction l generalizing s with
  | nil => rfl
  | cons x l ih => exact (ih _).trans (add_received e s x.1 x.2)

theorem remove_received (e : PEnv c) (s : PState) (p : Bytes) (ch : List Bytes) :
    (removePublicPeer e s p ch).1.received = s.received := by
  rw [removePublicPeer_eq]
  split
  · rfl
  · split <;> rfl

theorem receivedInv_run (e : PEnv c) (as : List PAction) : ∀ (s : PState) (l : List ONode),
    ReceivedInv e s.received l → ReceivedInv e (prun e s as).received (heard l as) := by
  induction as with
  | nil => intro s l h; exact h
  | cons a as ih =>
    intro s l h
    cases a with
    | add addr n => exact ih _ l (by simp only [pstep]; rw [add_received]; exact h)
    | addMany k => exact ih _ l (by simp only [pstep]; rw [addMany_received]; exact h)
    | remove p ch => exact ih _ l (by simp only [pstep]; rw [remove_received]; exact h)
    | refresh ch => exact ih _ l h
    | exchange k now ch => exact ih _ (l ++ k) (h.batch k)
    | take =>
      refine ih _ [] ⟨?_, ?_⟩
      · intro k n hn; cases hn
      · intro n hn; cases hn
    | adnl t => exact ih _ l h

theorem init_received (e : PEnv c) (peers chosen : List Bytes) :
    (PState.init e peers chosen).received = [] := by
  unfold PState.init
  simp only []
  split <;> rfl

/-- C49: `take_new_peers` gives exactly one record for each key under which a foreign record was heard
since the last time: a genuine one heard, under another key than the own one, and none heard was newer. -/
theorem C49_received (e : PEnv c) (peers ch0 : List Bytes) (as : List PAction) :
    let m := (takeNewPeers (prun e (PState.init e peers ch0) as)).2
    (∀ k n, m.get k = some n → n ∈ heard [] as ∧ n.id = k ∧ Foreign e n ∧
      ∀ n' ∈ heard [] as, n'.id = k → Foreign e n' → n'.version ≤ n.version) ∧
    (∀ n ∈ heard [] as, Foreign e n → ∃ n', m.get n.id = some n') := by
  intro m
  have h := receivedInv_run e as (PState.init e peers ch0) []
    ⟨fun k n hn => (by rw [init_received] at hn; cases hn), fun n hn => (by cases hn)⟩
  exact ⟨h.stored, h.present⟩

/-- C49: the new peers found in an answer are the peers of the foreign records in it that are not known. -/
theorem C49_answer (e : PEnv c) (existing : Bytes → Bool) (answer : Bytes) (r : List Bytes)
    (h : newPeersOf e existing answer = some r) :
    ∃ l, Storage.decodeNodes answer = some l ∧
    ∀ id, id ∈ r ↔ existing id = false ∧ ∃ n ∈ l, Foreign e n ∧
      ∃ pub, Genuine c e.overlay n pub ∧ Node.shortId c pub = id := by
  unfold newPeersOf at h
  obtain ⟨l, hl, rfl⟩ := Option.map_eq_some_iff.mp h
  refine ⟨l, hl, fun id => ?_⟩
  simp only [List.mem_filterMap, Option.filter_eq_some_iff, Option.map_eq_some_iff, filterNodes_mem]
  constructor
  · rintro ⟨n, ⟨hn, hf⟩, ⟨pub, hp, rfl⟩, hx⟩
    obtain ⟨q, hq⟩ := hf.2
    have : q = pub := Option.some.inj (hq.2.1.symm.trans hp)
    subst this
    exact ⟨by simpa using hx, n, hn, hf, q, hq, rfl⟩
  · rintro ⟨hx, n, hn, hf, pub, hg, rfl⟩
    exact ⟨n, ⟨hn, hf⟩, ⟨pub, hg.2.1, rfl⟩, by simp [hx]⟩

/-! ## C53 -/

/-- C53: in every reachable state and for every choice of up to four neighbours, the answer is the own
record (genuine) followed by the stored records of the chosen neighbours that have one: at most five records
of different nodes, all genuine. -/
theorem C53_random_peers (hl : c.Lawful) (e : PEnv c) (peers ch0 : List Bytes) (as : List PAction)
    (now : Nat) (chosen : List Bytes)
    (hc : IsSample chosen (prun e (PState.init e peers ch0) as).neighbours.index 4) :
    let s := prun e (PState.init e peers ch0) as
    let answer := prepareRandomPeers e s now chosen
    ∃ rest, answer = signLocalNode e now :: rest ∧
      rest.Perm (chosen.filterMap s.nodes.get) ∧
      Genuine c e.overlay (signLocalNode e now) (c.pubOf e.key) ∧
      (signLocalNode e now).version = now ∧
      (∀ n ∈ rest, ∃ addr pub, (addr, n) ∈ offers as ∧ Genuine c e.overlay n pub ∧
        Node.shortId c pub ∈ s.neighbours.index ∧ Node.shortId c pub ≠ e.localId ∧
        s.nodes.get (Node.shortId c pub) = some n) ∧
      answer.length ≤ 5 ∧
      (answer.map (fun n => (Receiver.fullId c n.id).map (Node.shortId c))).Nodup := by
  intro s answer
  have hset : SetsInv e s := setsInv_run (setsInv_init e peers ch0) as
  have hnod := nodesInv_run e peers ch0 as
  have hchn : chosen.Nodup := hc.nodup hset.neigh.nodup
  have hchl : chosen.length ≤ 4 := by have := hc.2; omega
  have hperm := fresh_fill hchn hchl
  let ids := (PeersSet.randomlyFillFrom (PeersSet.withCapacity 4) false chosen 4 none).index
  have hrest : ∀ n ∈ ids.filterMap s.nodes.get, ∃ addr pub, (addr, n) ∈ offers as ∧
      Genuine c e.overlay n pub ∧ Node.shortId c pub ∈ s.neighbours.index ∧
      Node.shortId c pub ≠ e.localId ∧ s.nodes.get (Node.shortId c pub) = some n := by
    intro n hn
    obtain ⟨id, hid, hget⟩ := List.mem_filterMap.mp hn
    obtain ⟨addr, pub, hm, hw, hpid, _⟩ := hnod.stored id n hget
    refine ⟨addr, pub, hm, hw.1, ?_, hw.2.1, ?_⟩
    · rw [hpid]; exact hc.mem (hperm.mem_iff.mp hid)
    · rw [hpid]; exact hget
  have hown : Genuine c e.overlay (signLocalNode e now) (c.pubOf e.key) :=
    ⟨rfl, hl.decode_pub _, hl.sign_length _ _, hl.sign_verify _ _⟩
  refine ⟨ids.filterMap s.nodes.get, rfl, hperm.filterMap _, hown, rfl, hrest, ?_, ?_⟩
  · show (ids.filterMap s.nodes.get).length + 1 ≤ 5
    have h1 : (ids.filterMap s.nodes.get).length ≤ ids.length := List.length_filterMap_le _ _
    have h2 : ids.length = chosen.length := hperm.length_eq
    omega
  · show (_ :: (ids.filterMap s.nodes.get).map _).Nodup
    rw [List.nodup_cons]
    constructor
    · intro hmem
      obtain ⟨n, hn, hnid⟩ := List.mem_map.mp hmem
      obtain ⟨_, pub, _, hg, _, hne, _⟩ := hrest n hn
      simp only [] at hnid
      rw [hg.2.1, hown.2.1] at hnid
      exact hne (Option.some.inj hnid)
    · have hidn : ids.Nodup := hperm.nodup_iff.mpr hchn
      have hmap : (ids.filterMap s.nodes.get).map (fun n => (Receiver.fullId c n.id).map (Node.shortId c)) =
          (ids.filter (fun id => (s.nodes.get id).isSome)).map some := by
        clear_value ids
        clear hrest hidn hperm
        induction ids with
        | nil => rfl
        | cons x ids ih =>
          cases hx : s.nodes.get x with
          | none => simp [hx, ih]
          | some n =>
            obtain ⟨_, pub, _, hw, hpid, _⟩ := hnod.stored x n hx
            simp only [List.filterMap_cons, hx, List.map_cons, List.filter_cons, Option.isSome_some, if_true]
            rw [ih, hw.1.2.1, Option.map_some, hpid]
      rw [hmap]
      exact (hidn.filter _).map (fun a b h => Option.some.inj h)

/-! ## C50 -/

/-- `p` is not offered to the overlay in these actions. -/
def NotOffered (e : PEnv c) (p : Bytes) (l : List (Address.SockAddr × ONode)) : Prop :=
  ∀ addr n pub, (addr, n) ∈ l → Welcome e addr n pub → Node.shortId c pub ≠ p

/-- `p` is neither a possible target of a broadcast nor in a possible random-peers answer. -/
def Unused (e : PEnv c) (s : PState) (p : Bytes) : Prop :=
  (∀ chosen amount except, IsSample chosen s.neighbours.index (PeersSet.sampleSize amount except) →
    p ∉ targets chosen amount except) ∧
  (∀ now chosen, IsSample chosen s.neighbours.index 4 → ∀ n ∈ (prepareRandomPeers e s now chosen).tail,
    ∀ pub, Genuine c e.overlay n pub → Node.shortId c pub ≠ p)

/-- C50 in full: a removed peer is not used until it is offered again. -/
def C50_full : Prop :=
  ∀ (c : Crypto), c.Lawful → ∀ (e : PEnv c) (peers ch0 : List Bytes) (as as' : List PAction) (p : Bytes)
    (ch : List Bytes), SampledInit e peers ch0 →
    Sampled e (PState.init e peers ch0) (as ++ .remove p ch :: as') →
    NotOffered e p (offers as') →
    Unused e (prun e (PState.init e peers ch0) (as ++ .remove p ch :: as')) p

/-- After the removal: in `ignored_peers`, and if outside of the neighbours then outside from then on. -/
theorem ignored_stays {e : PEnv c} {p : Bytes} (as : List PAction) (hno : NotOffered e p (offers as))
    {s : PState} (hset : SetsInv e s) (hp : p ∈ s.ignored) :
    p ∈ (prun e s as).ignored ∧
    (p ∉ s.neighbours.index → p ∉ (prun e s as).neighbours.index) := by
  have := prun_inv (e := e)
    (fun s' l => SetsInv e s' ∧ (NotOffered e p l → p ∈ s'.ignored ∧
      (p ∉ s.neighbours.index → p ∉ s'.neighbours.index)))
    (by
      rintro s' l addr n ⟨hi, h⟩
      refine ⟨setsInv_add hi addr n, fun hn => ?_⟩
      obtain ⟨h1, h2⟩ := h (fun a m q hm => hn a m q (by simp [hm]))
      rcases addPublicPeer_cases e s' addr n with ⟨pub, t, hw, heq⟩ | ⟨_, t, heq⟩
      · have hne : Node.shortId c pub ≠ p := hn addr n pub (by simp) hw
        rw [heq]
        refine ⟨(List.mem_erase_of_ne hne.symm).mpr h1, fun h0 hx => ?_⟩
        have hx' : p ∈ (if PeersSet.isFull s'.neighbours = true then s'.neighbours
            else (PeersSet.insert s'.neighbours (Node.shortId c pub)).1).index := hx
        split at hx'
        · exact h2 h0 hx'
        · rcases mem_insert hi.neigh hx' with h | h
          · exact h2 h0 h
          · exact hne h.symm
      · rw [heq]; exact ⟨h1, h2⟩)
    (by
      rintro s' l a ⟨hi, h⟩ ha1 ha2
      refine ⟨setsInv_other hi a ha1 ha2, fun hn => ?_⟩
      obtain ⟨h1, h2⟩ := h hn
      cases a with
      | add addr n => exact absurd rfl (ha1 addr n)
      | addMany k => exact absurd rfl (ha2 k)
      | remove q ch =>
        simp only [pstep, removePublicPeer_eq]
        split
        · exact ⟨h1, h2⟩
        · rename_i hq
          split
          · have h0 : SetsInv e { s' with ignored := q :: s'.ignored } :=
              ⟨hi.1, hi.2, hi.3, hi.4, List.nodup_cons.mpr ⟨hq, hi.5⟩⟩
            refine ⟨by show p ∈ q :: s'.ignored; simp [h1], fun h3 hx => ?_⟩
            rcases mem_updateNeighbours h0 hx with h | h
            · exact h2 h3 h
            · exact h.2 (by simp [h1])
          · exact ⟨by simp [h1], h2⟩
      | refresh ch =>
        refine ⟨h1, fun h3 hx => ?_⟩
        rcases mem_updateNeighbours hi hx with h | h
        · exact h2 h3 h
        · exact h.2 h1
      | exchange k now ch => exact ⟨h1, h2⟩
      | take => exact ⟨h1, h2⟩
      | adnl t => exact ⟨h1, h2⟩)
    as s [] ⟨hset, fun _ => ⟨hp, id⟩⟩
  exact this.2 (by simpa using hno)

theorem remove_ignored (e : PEnv c) (s : PState) (p : Bytes) (ch : List Bytes) :
    p ∈ (removePublicPeer e s p ch).1.ignored := by
  rw [removePublicPeer_eq]
  split
  · assumption
  · split
    · show p ∈ p :: s.ignored; simp
    · simp

theorem prun_append (e : PEnv c) (as bs : List PAction) : ∀ s, prun e s (as ++ bs) = prun e (prun e s as) bs := by
  induction as with
  | nil => intro s; rfl
  | cons a as ih => intro s; exact ih _

/-- Outside of the neighbours means unused. -/
theorem unused_of_not_neighbour {e : PEnv c} {peers ch0 : List Bytes} {as : List PAction} {p : Bytes}
    (h : p ∉ (prun e (PState.init e peers ch0) as).neighbours.index) :
    Unused e (prun e (PState.init e peers ch0) as) p := by
  refine ⟨fun chosen amount except hs hm => h ?_, fun now chosen hs n hn pub hg hp => h ?_⟩
  · unfold targets PeersSet.getRandomPeers at hm
    cases except with
    | none => exact hs.mem hm
    | some x => exact hs.mem (List.mem_filter.mp (List.mem_of_mem_take hm)).1
  · have hn' : n ∈ ((PeersSet.randomlyFillFrom (PeersSet.withCapacity 4) false chosen 4 none).index.filterMap
        (prun e (PState.init e peers ch0) as).nodes.get) := hn
    obtain ⟨id, hid, hget⟩ := List.mem_filterMap.mp hn'
    obtain ⟨addr, q, hm, hw, hpid, _⟩ := (nodesInv_run e peers ch0 as).stored id n hget
    obtain rfl := hw.1.unique hg
    have hx := mem_extend (PeersSet.withCapacity_inv 4) hid
    rcases hx with hx | hx
    · simp [PeersSet.withCapacity] at hx
    · rw [← hp, hpid]; exact hs.mem hx

/-- C50, part: from the removal until it is offered again, the peer is not active and never handed out by
`write_cached_peers`. Missing: it may still be used as a neighbour, see `C50_full_false`. -/
theorem C50_inactive_partial (e : PEnv c) (peers ch0 : List Bytes) (as as' : List PAction) (p : Bytes)
    (ch : List Bytes) (hno : NotOffered e p (offers as')) :
    let s := prun e (PState.init e peers ch0) (as ++ .remove p ch :: as')
    isActive s p = false ∧
    ∀ (dst : PeersSet.State Bytes) chosen amount, PeersSet.Inv dst → p ∉ dst.index →
      p ∉ (writeCachedPeers s dst chosen amount).index := by
  intro s
  have hset : SetsInv e (prun e (PState.init e peers ch0) as) := setsInv_run (setsInv_init e peers ch0) as
  have hset' : SetsInv e (removePublicPeer e (prun e (PState.init e peers ch0) as) p ch).1 :=
    setsInv_remove hset p ch
  have hig : p ∈ s.ignored := by
    have := (ignored_stays as' hno hset' (remove_ignored e _ p ch)).1
    show p ∈ (prun e (PState.init e peers ch0) (as ++ .remove p ch :: as')).ignored
    rw [prun_append]
    exact this
  refine ⟨by simp [isActive, hig], fun dst chosen amount hd hp hx => ?_⟩
  rcases mem_extend hd (ps := PeersSet.fillOffered chosen amount (some s.ignored)) hx with h | h
  · exact hp h
  · have := (List.mem_filter.mp (List.mem_of_mem_take h)).2
    simp [hig] at this

/-- C50, part: if the peer is not a neighbour right after the removal (it was not one, or was pushed out by
the refill), it is unused until it is offered again. -/
theorem C50_not_neighbour_partial (e : PEnv c) (peers ch0 : List Bytes) (as as' : List PAction) (p : Bytes)
    (ch : List Bytes) (hno : NotOffered e p (offers as'))
    (hout : p ∉ (prun e (PState.init e peers ch0) (as ++ [.remove p ch])).neighbours.index) :
    Unused e (prun e (PState.init e peers ch0) (as ++ .remove p ch :: as')) p := by
  apply unused_of_not_neighbour
  have hset : SetsInv e (prun e (PState.init e peers ch0) as) := setsInv_run (setsInv_init e peers ch0) as
  have hset' : SetsInv e (removePublicPeer e (prun e (PState.init e peers ch0) as) p ch).1 :=
    setsInv_remove hset p ch
  rw [prun_append]
  rw [prun_append] at hout
  exact (ignored_stays as' hno hset' (remove_ignored e _ p ch)).2 hout

/-- The elements of `l` that are not in `ex`. -/
def without {α : Type} [DecidableEq α] (l ex : List α) : List α := l.filter (fun x => x ∉ ex)

/-- C50, part: the refill pushes the removed peer out when it brings as many new peers as there are places. -/
theorem C50_pushed_out_partial (e : PEnv c) (s : PState) (hs : SetsInv e s) (p : Bytes) (ch : List Bytes)
    (hp : p ∈ s.neighbours.index) (hi : p ∉ s.ignored)
    (hd : IsSample ch s.known.index (e.maxNeighbours + (s.ignored.length + 1)))
    (hnew : ∀ x ∈ ch, x ∉ p :: s.ignored → x ∉ s.neighbours.index)
    (hpos : 0 < e.maxNeighbours) (hmany : e.maxNeighbours ≤ (without ch (p :: s.ignored)).length) :
    p ∉ (removePublicPeer e s p ch).1.neighbours.index := by
  rw [removePublicPeer_eq, if_neg hi, if_pos ((contains_iff hs.neigh p).mpr hp)]
  intro hx
  have hx' : p ∈ (PeersSet.extend s.neighbours
    ((without ch (p :: s.ignored)).take e.maxNeighbours)).index := hx
  have hperm := (extend_index_perm hs.neigh
    ((without ch (p :: s.ignored)).take e.maxNeighbours)).mem_iff.mp hx'
  have hchn : ch.Nodup := hd.nodup hs.known.nodup
  have hlen : ((without ch (p :: s.ignored)).take e.maxNeighbours).length = e.maxNeighbours := by
    rw [List.length_take]; omega
  generalize hxs : (without ch (p :: s.ignored)).take e.maxNeighbours = xs at *
  have hxsn : xs.Nodup := hxs ▸ (List.take_sublist _ _).nodup (hchn.filter _)
  have hxsm : ∀ x ∈ xs, x ∈ ch ∧ x ∉ p :: s.ignored := by
    intro x hx
    rw [← hxs] at hx
    simpa using List.mem_filter.mp (List.mem_of_mem_take hx)
  have hq : (PeersSet.queue s.neighbours).length ≤ s.neighbours.capacity := by
    rw [(PeersSet.queue_perm _).length_eq]; exact hs.neigh.le
  have hnd : (PeersSet.queue s.neighbours ++ xs).Nodup := by
    rw [List.nodup_append]
    refine ⟨(PeersSet.queue_perm _).nodup_iff.mpr hs.neigh.nodup, hxsn, ?_⟩
    intro a ha b hb hab
    subst hab
    exact hnew a (hxsm a hb).1 (hxsm a hb).2 ((PeersSet.queue_perm _).mem_iff.mp ha)
  rw [foldl_fifo_fresh hs.neigh.pos xs _ hnd hq] at hperm
  have hge : (PeersSet.queue s.neighbours).length ≤
      (PeersSet.queue s.neighbours ++ xs).length - s.neighbours.capacity := by
    rw [hs.neighCap, List.length_append]
    omega
  rw [List.drop_append, List.drop_of_length_le hge, List.nil_append] at hperm
  have := hxsm p (List.mem_of_mem_drop hperm)
  simp at this

/-- C50 fails for good in a small overlay: as long as fewer peers are known than there are places for
neighbours, a neighbour stays one whatever happens, removed or not. -/
theorem C50_small_overlay_never_leaves (e : PEnv c) (peers ch0 : List Bytes) (as as' : List PAction)
    (p : Bytes) (h0 : SampledInit e peers ch0)
    (hs : Sampled e (PState.init e peers ch0) (as ++ as'))
    (hp : p ∈ (prun e (PState.init e peers ch0) as).neighbours.index)
    (hsmall : (prun e (PState.init e peers ch0) (as ++ as')).known.index.length < e.maxNeighbours)
    (hsmall' : (prun e (PState.init e peers ch0) (as ++ as')).known.index.length < 65536) :
    p ∈ (prun e (PState.init e peers ch0) (as ++ as')).neighbours.index := by
  -- invariant: neighbours are known, and the given neighbours `N` stay
  let Small (s : PState) : Prop := s.known.index.length < e.maxNeighbours ∧
    s.known.index.length < maxOverlayPeers
  have key : ∀ (N : List Bytes) (bs : List PAction) (s0 : PState) (l0 : List (Address.SockAddr × ONode)),
      (SetsInv e s0 ∧ (Small s0 → (∀ x ∈ s0.neighbours.index, x ∈ s0.known.index) ∧
        ∀ x ∈ N, x ∈ s0.neighbours.index)) → Sampled e s0 bs →
      (SetsInv e (prun e s0 bs) ∧ (Small (prun e s0 bs) →
        (∀ x ∈ (prun e s0 bs).neighbours.index, x ∈ (prun e s0 bs).known.index) ∧
        ∀ x ∈ N, x ∈ (prun e s0 bs).neighbours.index)) := by
    intro N bs s0 l0 h hsam
    refine prun_inv_sampled (e := e) (fun s _ => SetsInv e s ∧ (Small s →
      (∀ x ∈ s.neighbours.index, x ∈ s.known.index) ∧ ∀ x ∈ N, x ∈ s.neighbours.index)) ?_ ?_ bs s0 l0 h hsam
    · rintro s l addr n ⟨hi, hk⟩
      refine ⟨setsInv_add hi addr n, ?_⟩
      rcases addPublicPeer_cases e s addr n with ⟨pub, t, _, heq⟩ | ⟨_, t, heq⟩ <;> rw [heq]
      · intro hsm
        have hl1 : (PeersSet.insert s.known (Node.shortId c pub)).1.index.length < e.maxNeighbours := hsm.1
        have hl2 : (PeersSet.insert s.known (Node.shortId c pub)).1.index.length < maxOverlayPeers := hsm.2
        have hge := insert_length hi.known (Node.shortId c pub)
        obtain ⟨k1, k2⟩ := hk ⟨by omega, by omega⟩
        have hkeep : ∀ x ∈ s.known.index, x ∈ (PeersSet.insert s.known (Node.shortId c pub)).1.index := by
          refine extend_keeps (U := (PeersSet.insert s.known (Node.shortId c pub)).1.index)
            [Node.shortId c pub] hi.known ?_ ?_ (by rw [hi.knownCap]; exact hl2)
          · intro x hx
            have hlt : s.known.index.length < s.known.capacity := by rw [hi.knownCap]; omega
            refine (PeersSet.queue_perm _).mem_iff.mp ?_
            rw [(PeersSet.insert_spec hi.known (Node.shortId c pub)).2.2.2.1]
            have hxq : x ∈ PeersSet.queue s.known := (PeersSet.queue_perm _).mem_iff.mpr hx
            unfold fifoInsert
            split
            · exact hxq
            · rw [if_pos (by rw [(PeersSet.queue_perm _).length_eq]; exact hlt)]
              simp [hxq]
          · intro x hx
            rw [List.mem_singleton.mp hx]
            exact mem_insert_self hi.known _
        have hself := mem_insert_self hi.known (Node.shortId c pub)
        show (∀ x ∈ (if PeersSet.isFull s.neighbours = true then s.neighbours
              else (PeersSet.insert s.neighbours (Node.shortId c pub)).1).index,
              x ∈ (PeersSet.insert s.known (Node.shortId c pub)).1.index) ∧
            ∀ x ∈ N, x ∈ (if PeersSet.isFull s.neighbours = true then s.neighbours
              else (PeersSet.insert s.neighbours (Node.shortId c pub)).1).index
        split
        · exact ⟨fun x hx => hkeep x (k1 x hx), k2⟩
        · refine ⟨fun x hx => ?_, fun x hx => ?_⟩
          · rcases mem_insert hi.neigh hx with h | h
            · exact hkeep x (k1 x h)
            · rw [h]; exact hself
          · refine extend_keeps (U := (PeersSet.insert s.known (Node.shortId c pub)).1.index)
              [Node.shortId c pub] hi.neigh (fun y hy => hkeep y (k1 y hy)) ?_ ?_ x (k2 x hx)
            · intro y hy
              rw [List.mem_singleton.mp hy]
              exact hself
            · rw [hi.neighCap]; omega
      · exact hk
    · rintro s l a ⟨hi, hk⟩ hd ha1 ha2
      refine ⟨setsInv_other hi a ha1 ha2, ?_⟩
      have fill : ∀ (s' : PState), SetsInv e s' → s'.known = s.known → s'.neighbours = s.neighbours →
          ∀ ch k, (∀ x ∈ ch, x ∈ s.known.index) → Small s →
          (∀ x ∈ (updateNeighbours s' ch k).neighbours.index, x ∈ s.known.index) ∧
          ∀ x ∈ N, x ∈ (updateNeighbours s' ch k).neighbours.index := by
        intro s' hi' hkn hnb ch k hch hsm
        obtain ⟨k1, k2⟩ := hk hsm
        refine ⟨fun x hx => ?_, fun x hx => ?_⟩
        · rcases mem_updateNeighbours hi' hx with h | h
          · exact k1 x (hnb ▸ h)
          · exact hch x h.1
        · refine extend_keeps (U := s.known.index) _ hi'.neigh (by rw [hnb]; exact k1) ?_ ?_ x
            (by rw [hnb]; exact k2 x hx)
          · intro y hy
            exact hch y (List.mem_filter.mp (List.mem_of_mem_take hy)).1
          · rw [hi'.neighCap]
            have := hsm.1
            omega
      cases a with
      | add addr n => exact absurd rfl (ha1 addr n)
      | addMany k => exact absurd rfl (ha2 k)
      | remove q ch =>
        simp only [pstep]
        intro hsm
        have hsm' : Small s := by
          have : (removePublicPeer e s q ch).1.known = s.known := removePublicPeer_known e s q ch
          unfold Small at hsm
          rw [this] at hsm
          exact hsm
        rw [removePublicPeer_known, removePublicPeer_eq]
        split
        · exact hk hsm'
        · rename_i hq
          split
          · rename_i hc
            exact fill { s with ignored := q :: s.ignored }
              ⟨hi.1, hi.2, hi.3, hi.4, List.nodup_cons.mpr ⟨hq, hi.5⟩⟩ rfl rfl ch _
              (fun x hx => (hd hq ((contains_iff hi.neigh q).mp hc)).mem hx) hsm'
          · exact hk hsm'
      | refresh ch => exact fun hsm => fill s hi rfl rfl ch 1 (fun x hx => IsSample.mem hd hx) hsm
      | exchange k now ch => exact hk
      | take => exact hk
      | adnl t => exact hk
  have hsplit : ∀ (as bs : List PAction) s, Sampled e s (as ++ bs) → Sampled e s as ∧ Sampled e (prun e s as) bs := by
    intro as bs
    induction as with
    | nil => intro s h; exact ⟨trivial, h⟩
    | cons a as ih => intro s h; exact ⟨⟨h.1, (ih _ h.2).1⟩, (ih _ h.2).2⟩
  obtain ⟨hs1, hs2⟩ := hsplit as as' _ hs
  have k1 := key [] as (PState.init e peers ch0) [] ⟨setsInv_init e peers ch0, fun _ =>
    ⟨fun x hx => by rw [init_known]; exact init_neighbours h0 hx, fun x hx => by cases hx⟩⟩ hs1
  have k2 := key [p] as' (prun e (PState.init e peers ch0) as) [] ⟨k1.1, fun hsm =>
    ⟨(k1.2 hsm).1, fun x hx => by rw [List.mem_singleton.mp hx]; exact hp⟩⟩ hs2
  rw [prun_append] at hsmall hsmall' ⊢
  exact (k2.2 ⟨hsmall, hsmall'⟩).2 p (by simp)

/-! ### A concrete overlay -/

/-- An overlay of up to 200 neighbours; the local node has key 1. -/
def sampleOverlay : PEnv Crypto.toy where
  overlay := List.replicate 32 5
  key := (1 : UInt8)
  maxNeighbours := 200
  filter := none
  socketAddr := ⟨1, 1, 1, 1, 1⟩

/-- The record of the node with key `k`. -/
def recordOf (k : UInt8) (version : Nat) : ONode :=
  signLocalNode (c := Crypto.toy) { sampleOverlay with key := (show Crypto.toy.Sec from k) } version

/-- The short id of that node. -/
def idOf (k : UInt8) : Bytes := Node.shortId Crypto.toy k

/-- Someone else's address. -/
def sampleAddr : Address.SockAddr := ⟨2, 2, 2, 2, 2⟩

theorem sample_genuine (k : UInt8) (v : Nat) :
    Genuine Crypto.toy sampleOverlay.overlay (recordOf k v) k :=
  ⟨rfl, Crypto.toy_lawful.decode_pub (show Crypto.toy.Pub from k), Crypto.toy_lawful.sign_length _ _,
    Crypto.toy_lawful.sign_verify (show Crypto.toy.Sec from k) _⟩

theorem sample_welcome : Welcome sampleOverlay sampleAddr (recordOf 9 4) (9 : UInt8) :=
  ⟨sample_genuine 9 4, by decide, by decide, fun f h => by cases h⟩

/-- C49: three records of a node are offered; the middle one has the greatest version and is kept. -/
example : (prun sampleOverlay (PState.init sampleOverlay [] [])
    [.add sampleAddr (recordOf 9 4), .addMany [(sampleAddr, recordOf 9 8), (sampleAddr, recordOf 9 6)]]).nodes =
    [(idOf 9, recordOf 9 8)] := by decide +kernel

/-- C49: a record with a changed version, a record of the local node, a record for another overlay. -/
example : (prun sampleOverlay (PState.init sampleOverlay [] [])
    [.addMany [(sampleAddr, { recordOf 9 4 with version := 5, signature := List.replicate 64 0 }),
      (sampleAddr, recordOf 1 4),
      (sampleAddr, { recordOf 9 4 with overlay := List.replicate 32 6 })]]).nodes = [] := by decide +kernel

/-- C49: received records: own key and forged ones left out, the newest of each kept. -/
example : (prun sampleOverlay (PState.init sampleOverlay [] [])
    [.exchange [recordOf 9 4, recordOf 1 4, recordOf 9 7, { recordOf 8 4 with signature := [] }] 0 [],
     .exchange [recordOf 9 5] 0 []]).received =
    [(.ed25519 (leBytes 32 9), recordOf 9 7)] := by decide +kernel

/-- C53: an answer with two records besides the own one. -/
example : prepareRandomPeers sampleOverlay (prun sampleOverlay (PState.init sampleOverlay [] [])
    [.add sampleAddr (recordOf 9 4), .add sampleAddr (recordOf 8 4)]) 3 [idOf 8, idOf 9] =
    [recordOf 1 3, recordOf 8 4, recordOf 9 4] := by decide +kernel

/-- C50 is false: the only neighbour is removed, and stays the target of broadcasts. -/
theorem C50_full_false : ¬ C50_full := by
  intro h
  have hw := sample_welcome
  have := h Crypto.toy Crypto.toy_lawful sampleOverlay [] [] [.add sampleAddr (recordOf 9 4)] [] (idOf 9)
    [idOf 9] (fun h => absurd rfl h)
    ⟨trivial, fun _ _ => ⟨by
      have : (pstep sampleOverlay (PState.init sampleOverlay [] []) (.add sampleAddr (recordOf 9 4))).known.index =
        [idOf 9] := by decide +kernel
      rw [this], by decide +kernel⟩, trivial⟩
    (fun _ _ _ hm => by cases hm)
  have hn : (prun sampleOverlay (PState.init sampleOverlay [] [])
    ([.add sampleAddr (recordOf 9 4)] ++ .remove (idOf 9) [idOf 9] :: [])).neighbours.index = [idOf 9] := by
    decide +kernel
  refine this.1 [idOf 9] 1 none ⟨by rw [hn], by rw [hn]; rfl⟩ ?_
  exact List.mem_singleton.mpr rfl

/-- C50: the removed peer is also still handed out in answers. -/
example : prepareRandomPeers sampleOverlay (prun sampleOverlay (PState.init sampleOverlay [] [])
    [.add sampleAddr (recordOf 9 4), .remove (idOf 9) [idOf 9]]) 3 [idOf 9] =
    [recordOf 1 3, recordOf 9 4] := by decide +kernel

/-- C50: with one place for a neighbour, the refill pushes the removed one out. -/
example : (prun { sampleOverlay with maxNeighbours := 1 } (PState.init { sampleOverlay with maxNeighbours := 1 } [] [])
    [.add sampleAddr (recordOf 9 4), .add sampleAddr (recordOf 8 4), .remove (idOf 9) [idOf 9, idOf 8]]).neighbours.index =
    [idOf 8] := by decide +kernel

/-- C49: the record of node 9 is taken; a record of the local node is not. -/
example : isActive (addPublicPeer sampleOverlay (PState.init sampleOverlay [] []) sampleAddr (recordOf 9 4)).1 (idOf 9) = true ∧
    (addPublicPeer sampleOverlay (PState.init sampleOverlay [] []) sampleAddr (recordOf 1 4)).2 = .ok none :=
  ⟨((C49_added sampleOverlay _ (setsInv_init _ [] []) sampleAddr (recordOf 9 4)).1 _ sample_welcome).2,
    ((C49_added sampleOverlay _ (setsInv_init _ [] []) sampleAddr (recordOf 1 4)).2 (fun pub h => by
      have hp : pub = (1 : UInt8) := by
        have h1 := h.1.2.1
        have h2 := (sample_genuine 1 4).2.1
        exact Option.some.inj (h1.symm.trans h2)
      exact h.2.1 (by rw [hp]; rfl))).1⟩

/-- C49: the neighbours after two offers were offered. -/
example : Member sampleOverlay [] [(sampleAddr, recordOf 9 4), (sampleAddr, recordOf 8 4)] (idOf 8) :=
  C49_members sampleOverlay [] [] [.add sampleAddr (recordOf 9 4), .add sampleAddr (recordOf 8 4)] (fun h => absurd rfl h)
    ⟨trivial, trivial, trivial⟩ (idOf 8) (by decide +kernel)

/-- C49: an answer with a known node, a new one and a forged record. -/
example : ∃ l, Storage.decodeNodes (writeONodes [recordOf 9 4, recordOf 8 4, { recordOf 7 4 with signature := [] }]) = some l ∧
    ∃ n ∈ l, Foreign sampleOverlay n := by
  obtain ⟨l, h1, h2⟩ := C49_answer sampleOverlay (fun x => decide (x = idOf 9))
    (writeONodes [recordOf 9 4, recordOf 8 4, { recordOf 7 4 with signature := [] }]) [idOf 8] (by decide +kernel)
  obtain ⟨-, n, hn, hf, -⟩ := (h2 (idOf 8)).mp (List.mem_singleton.mpr rfl)
  exact ⟨l, h1, n, hn, hf⟩

/-- C53: the draw of the answer above. -/
example := C53_random_peers Crypto.toy_lawful sampleOverlay [] [] [.add sampleAddr (recordOf 9 4), .add sampleAddr (recordOf 8 4)]
  3 [idOf 8, idOf 9] ⟨by
    have : (prun sampleOverlay (PState.init sampleOverlay [] [])
      [.add sampleAddr (recordOf 9 4), .add sampleAddr (recordOf 8 4)]).neighbours.index = [idOf 9, idOf 8] := by decide +kernel
    rw [this]
    exact (List.Perm.swap _ _ _).subperm, by decide +kernel⟩

/-- C50: the removed node 9 is not active, and with room for one neighbour it is pushed out and not used. -/
example : isActive (prun sampleOverlay (PState.init sampleOverlay [] [])
    ([.add sampleAddr (recordOf 9 4)] ++ .remove (idOf 9) [idOf 9] :: [])) (idOf 9) = false :=
  (C50_inactive_partial sampleOverlay [] [] [.add sampleAddr (recordOf 9 4)] [] (idOf 9) [idOf 9]
    (fun _ _ _ hm => by cases hm)).1

example : Unused { sampleOverlay with maxNeighbours := 1 }
    (prun { sampleOverlay with maxNeighbours := 1 } (PState.init { sampleOverlay with maxNeighbours := 1 } [] [])
      ([.add sampleAddr (recordOf 9 4), .add sampleAddr (recordOf 8 4)] ++ .remove (idOf 9) [idOf 9, idOf 8] :: [])) (idOf 9) :=
  C50_not_neighbour_partial { sampleOverlay with maxNeighbours := 1 } [] []
    [.add sampleAddr (recordOf 9 4), .add sampleAddr (recordOf 8 4)] [] (idOf 9) [idOf 9, idOf 8]
    (fun _ _ _ hm => by cases hm) (by decide +kernel)

example : idOf 9 ∉ (removePublicPeer { sampleOverlay with maxNeighbours := 1 }
    (prun { sampleOverlay with maxNeighbours := 1 } (PState.init { sampleOverlay with maxNeighbours := 1 } [] [])
      [.add sampleAddr (recordOf 9 4), .add sampleAddr (recordOf 8 4)]) (idOf 9) [idOf 9, idOf 8]).1.neighbours.index :=
  C50_pushed_out_partial { sampleOverlay with maxNeighbours := 1 } _ (setsInv_run (setsInv_init _ [] []) _) (idOf 9) _
    (by decide +kernel) (by decide +kernel) ⟨by decide +kernel, by decide +kernel⟩ (by decide +kernel) (by decide)
    (by decide +kernel)

/-- C49: of several peers offered at once, exactly the welcome ones are reported, in the order of the offers. -/
theorem C49_added_many (e : PEnv c) (l : List (Address.SockAddr × ONode)) (names : Address.SockAddr × ONode → Option Bytes)
    (hn : ∀ x, ∀ id, names x = some id ↔ ∃ pub, Welcome e x.1 x.2 pub ∧ id = Node.shortId c pub) :
    ∀ s : PState, (addPublicPeers e s l).2 = .ok (l.filterMap names) := by
  induction l with
  | nil => intro s; rfl
  | cons x rest ih =>
    intro s
    obtain ⟨addr, n⟩ := x
    unfold addPublicPeers
    rcases addPublicPeer_cases e s addr n with ⟨pub, t, hw, heq⟩ | ⟨hnw, t, heq⟩
    · rw [heq]
      simp only
      have hr := ih (insertPublicPeer { s with adnl := t } (Node.shortId c pub) n)
      have hx : names (addr, n) = some (Node.shortId c pub) := (hn (addr, n) _).mpr ⟨pub, hw, rfl⟩
      generalize addPublicPeers e (insertPublicPeer { s with adnl := t } (Node.shortId c pub) n) rest = r at hr
      obtain ⟨s', r⟩ := r
      simp only at hr
      subst hr
      simp [hx]
    · rw [heq]
      simp only
      have hr := ih { s with adnl := t }
      have hx : names (addr, n) = none := by
        cases hy : names (addr, n) with
        | none => rfl
        | some id => obtain ⟨pub, h, -⟩ := (hn _ id).mp hy; exact absurd h (hnw pub)
      generalize addPublicPeers e { s with adnl := t } rest = r at hr
      obtain ⟨s', r⟩ := r
      simp only at hr
      subst hr
      simp [hx]

open Classical in
/-- C49: every overlay has such names. -/
example (e : PEnv c) : ∃ names : Address.SockAddr × ONode → Option Bytes,
    ∀ x, ∀ id, names x = some id ↔ ∃ pub, Welcome e x.1 x.2 pub ∧ id = Node.shortId c pub := by
  refine ⟨fun x => if h : ∃ pub, Welcome e x.1 x.2 pub then some (Node.shortId c h.choose) else none, fun x id => ?_⟩
  by_cases h : ∃ pub, Welcome e x.1 x.2 pub
  · simp only [dif_pos h, Option.some.injEq]
    constructor
    · rintro rfl; exact ⟨_, h.choose_spec, rfl⟩
    · rintro ⟨pub, h1, rfl⟩; rw [h.choose_spec.1.unique h1.1]
  · simp only [dif_neg h]
    constructor
    · intro h; cases h
    · rintro ⟨pub, h1, -⟩; exact absurd ⟨pub, h1⟩ h

/-- C49: two of three are told. -/
example : (addPublicPeers sampleOverlay (PState.init sampleOverlay [] [])
    [(sampleAddr, recordOf 9 4), (sampleAddr, recordOf 1 4), (sampleAddr, recordOf 8 4)]).2 = .ok [idOf 9, idOf 8] := by
  decide +kernel

end Verif.Props
