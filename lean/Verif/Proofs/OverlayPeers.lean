import Verif.Model.OverlayPeers
import Verif.Proofs.PeersSet
import Verif.Proofs.AMap

/-!
# Lemmas about the peers of an overlay
-/
namespace Verif.Overlay
open Verif.AdnlProto Verif.DhtProto Verif.Spec

variable {c : Crypto}

/-- `n` is a record for `overlay` signed by the owner of `pub`, the key it names. -/
def Genuine (c : Crypto) (overlay : Bytes) (n : ONode) (pub : c.Pub) : Prop :=
  n.overlay = overlay ∧ Receiver.fullId c n.id = some pub ∧ n.signature.length = 64 ∧
  c.verify pub (writeNodeToSign (Node.shortId c pub) overlay n.version) n.signature = true

/-- `n`, found at `addr`, is genuine, is someone else, and the ADNL node accepts such a peer. -/
def Welcome (e : PEnv c) (addr : Address.SockAddr) (n : ONode) (pub : c.Pub) : Prop :=
  Genuine c e.overlay n pub ∧ Node.shortId c pub ≠ e.localId ∧ addr ≠ e.socketAddr ∧
  (∀ f, e.filter = some f → f () addr (Node.shortId c pub) = true)

theorem verifyONode_iff {overlay : Bytes} {n : ONode} :
    Storage.verifyONode c overlay n = true ↔ ∃ pub, Genuine c overlay n pub := by
  simp only [Storage.verifyONode, Bool.and_eq_true, decide_eq_true_eq, Genuine, Storage.verifySig]
  constructor
  · rintro ⟨h1, h2⟩
    cases h : Receiver.fullId c n.id with
    | none => simp [h] at h2
    | some p =>
      simp only [h, Bool.and_eq_true, decide_eq_true_eq] at h2
      subst h1
      exact ⟨p, rfl, rfl, h2.1, h2.2⟩
  · rintro ⟨p, h1, h2, h3, h4⟩
    subst h1
    refine ⟨rfl, ?_⟩
    simp [h2, h3, h4]

theorem Genuine.unique {overlay : Bytes} {n : ONode} {p q : c.Pub} (h : Genuine c overlay n p)
    (h' : Genuine c overlay n q) : p = q := by
  have := h.2.1.symm.trans h'.2.1
  exact Option.some.inj this

theorem addPublicPeer_cases (e : PEnv c) (s : PState) (addr : Address.SockAddr) (n : ONode) :
    (∃ pub t, Welcome e addr n pub ∧ addPublicPeer e s addr n =
      (insertPublicPeer { s with adnl := t } (Node.shortId c pub) n, .ok (some (Node.shortId c pub)))) ∨
    ((∀ pub, ¬ Welcome e addr n pub) ∧ ∃ t, addPublicPeer e s addr n = ({ s with adnl := t }, .ok none)) := by
  unfold addPublicPeer
  split
  · rename_i hv
    refine .inr ⟨fun pub hw => ?_, s.adnl, rfl⟩
    rw [verifyONode_iff.mpr ⟨pub, hw.1⟩] at hv
    cases hv
  · rename_i hv
    obtain ⟨pub, hg⟩ := verifyONode_iff.mp (by simpa using hv)
    rw [hg.2.1]
    simp only []
    have huniq : ∀ q, Welcome e addr n q → q = pub := fun q hq => hq.1.unique hg
    unfold PeerTable.addPeer
    split
    · rename_i hc
      refine .inr ⟨fun q hq => ?_, s.adnl, by simp⟩
      obtain rfl := huniq q hq
      rcases hc with hc | hc
      · exact hq.2.1 hc
      · exact hq.2.2.1 hc
    · rename_i hc
      have hc1 : Node.shortId c pub ≠ e.localId := fun h => hc (.inl h)
      have hc2 : addr ≠ e.socketAddr := fun h => hc (.inr h)
      split
      · rename_i hf
        refine .inr ⟨fun q hq => ?_, s.adnl, by simp⟩
        obtain rfl := huniq q hq
        unfold PeerTable.accepts at hf
        cases hfil : e.filter with
        | none => simp [hfil] at hf
        | some f =>
          simp only [hfil] at hf
          rw [hq.2.2.2 f hfil] at hf
          cases hf
      · rename_i hf
        refine .inl ⟨pub, ?_⟩
        have hw : Welcome e addr n pub := by
          refine ⟨hg, hc1, hc2, fun f hfil => ?_⟩
          simpa [PeerTable.accepts, hfil] using hf
        split
        · exact ⟨_, hw, by simp; rfl⟩
        · exact ⟨_, hw, by simp; rfl⟩

/-- Adding many is adding one after the other; there are no errors. -/
theorem addPublicPeers_eq (e : PEnv c) (l : List (Address.SockAddr × ONode)) : ∀ s : PState,
    (addPublicPeers e s l).1 = prun e s (l.map fun x => .add x.1 x.2) ∧
    ∃ rs, (addPublicPeers e s l).2 = .ok rs := by
  induction l with
  | nil => intro s; exact ⟨rfl, [], rfl⟩
  | cons x l ih =>
    obtain ⟨addr, n⟩ := x
    intro s
    simp only [addPublicPeers, List.map_cons, prun, pstep]
    rcases addPublicPeer_cases e s addr n with ⟨pub, t, _, h⟩ | ⟨_, t, h⟩
    · simp only [h]
      obtain ⟨i1, rs, i2⟩ := ih (insertPublicPeer { s with adnl := t } (Node.shortId c pub) n)
      cases hr : addPublicPeers e (insertPublicPeer { s with adnl := t } (Node.shortId c pub) n) l with
      | mk a b =>
        rw [hr] at i1 i2
        simp only at i1 i2
        subst i2
        exact ⟨i1, _, rfl⟩
    · simp only [h]
      obtain ⟨i1, rs, i2⟩ := ih { s with adnl := t }
      cases hr : addPublicPeers e { s with adnl := t } l with
      | mk a b =>
        rw [hr] at i1 i2
        simp only at i1 i2
        subst i2
        exact ⟨i1, _, rfl⟩

/-- Everything offered to `add_public_peer(s)`. -/
def offers : List PAction → List (Address.SockAddr × ONode)
  | [] => []
  | .add addr n :: as => (addr, n) :: offers as
  | .addMany l :: as => l ++ offers as
  | _ :: as => offers as

/-- What a single action offers. -/
def offersOf : PAction → List (Address.SockAddr × ONode)
  | .add addr n => [(addr, n)]
  | .addMany l => l
  | _ => []

theorem offers_cons (a : PAction) (as : List PAction) : offers (a :: as) = offersOf a ++ offers as := by
  cases a <;> rfl

/-- An invariant that may depend on what was offered. -/
theorem prun_inv {e : PEnv c} (P : PState → List (Address.SockAddr × ONode) → Prop)
    (hadd : ∀ s l addr n, P s l → P (addPublicPeer e s addr n).1 (l ++ [(addr, n)]))
    (hother : ∀ s l a, P s l → (∀ addr n, a ≠ .add addr n) → (∀ l, a ≠ .addMany l) → P (pstep e s a) l)
    (as : List PAction) : ∀ s l, P s l → P (prun e s as) (l ++ offers as) := by
  have hmany : ∀ (k : List (Address.SockAddr × ONode)) s l, P s l →
      P (prun e s (k.map fun x => .add x.1 x.2)) (l ++ k) := by
    intro k
    induction k with
    | nil => intro s l h; simpa [prun] using h
    | cons x k ih =>
      intro s l h
      have := ih _ _ (hadd s l x.1 x.2 h)
      simpa [prun, pstep] using this
  induction as with
  | nil => intro s l h; simpa [prun, offers] using h
  | cons a as ih =>
    intro s l h
    rw [offers_cons, ← List.append_assoc]
    refine ih _ _ ?_
    cases a with
    | add addr n => exact hadd s l addr n h
    | addMany k =>
      show P (addPublicPeers e s k).1 (l ++ k)
      rw [(addPublicPeers_eq e k s).1]
      exact hmany k s l h
    | remove p ch => simpa [offersOf] using hother s l (.remove p ch) h (by simp) (by simp)
    | refresh ch => simpa [offersOf] using hother s l (.refresh ch) h (by simp) (by simp)
    | exchange k now ch => simpa [offersOf] using hother s l (.exchange k now ch) h (by simp) (by simp)
    | take => simpa [offersOf] using hother s l .take h (by simp) (by simp)
    | adnl t => simpa [offersOf] using hother s l (.adnl t) h (by simp) (by simp)

theorem storeNewer_get {κ : Type} [DecidableEq κ] (m : AMap κ ONode) (k : κ) (n : ONode) (k' : κ) :
    (storeNewer m k n).get k' =
      if k' = k then
        match m.get k with
        | some old => if old.version < n.version then some n else some old
        | none => some n
      else m.get k' := by
  unfold storeNewer
  cases h : m.get k with
  | none => rw [AMap.get_put]
  | some old =>
    simp only []
    split
    · rw [AMap.get_put]
    · split
      · rename_i hk; rw [hk, h]
      · rfl

/-- What `nodes` contains, by what was offered. -/
structure NodesInv (e : PEnv c) (s : PState) (l : List (Address.SockAddr × ONode)) : Prop where
  stored : ∀ id n, s.nodes.get id = some n → ∃ addr pub, (addr, n) ∈ l ∧ Welcome e addr n pub ∧
    Node.shortId c pub = id ∧
    ∀ addr' m pub', (addr', m) ∈ l → Welcome e addr' m pub' → Node.shortId c pub' = id →
      m.version ≤ n.version
  present : ∀ addr m pub, (addr, m) ∈ l → Welcome e addr m pub →
    ∃ n, s.nodes.get (Node.shortId c pub) = some n

theorem NodesInv.congr {e : PEnv c} {s s' : PState} {l : List (Address.SockAddr × ONode)}
    (h : NodesInv e s l) (hn : s'.nodes = s.nodes) : NodesInv e s' l :=
  ⟨by rw [hn]; exact h.stored, by rw [hn]; exact h.present⟩

theorem NodesInv.add {e : PEnv c} {s : PState} {l : List (Address.SockAddr × ONode)}
    (h : NodesInv e s l) (addr : Address.SockAddr) (n : ONode) :
    NodesInv e (addPublicPeer e s addr n).1 (l ++ [(addr, n)]) := by
  rcases addPublicPeer_cases e s addr n with ⟨pub, t, hw, heq⟩ | ⟨hnw, t, heq⟩
  · have hnodes : (addPublicPeer e s addr n).1.nodes = storeNewer s.nodes (Node.shortId c pub) n := by
      rw [heq]; rfl
    constructor
    · intro id n' hn'
      rw [hnodes, storeNewer_get] at hn'
      by_cases hid : id = Node.shortId c pub
      · rw [if_pos hid] at hn'
        cases hold : s.nodes.get (Node.shortId c pub) with
        | none =>
          simp only [hold, Option.some.injEq] at hn'
          subst hn'
          refine ⟨addr, pub, by simp, hw, hid.symm, ?_⟩
          intro addr' m pub' hm hwm hidm
          rcases List.mem_append.mp hm with hm | hm
          · obtain ⟨x, hx⟩ := h.present addr' m pub' hm hwm
            rw [hidm, hid, hold] at hx
            cases hx
          · simp only [List.mem_singleton, Prod.mk.injEq] at hm
            rw [hm.2]; exact Nat.le_refl _
        | some old =>
          simp only [hold] at hn'
          obtain ⟨a0, p0, hm0, hw0, hid0, hmax⟩ := h.stored _ _ hold
          by_cases hlt : old.version < n.version
          · rw [if_pos hlt] at hn'
            simp only [Option.some.injEq] at hn'
            subst hn'
            refine ⟨addr, pub, by simp, hw, hid.symm, ?_⟩
            intro addr' m pub' hm hwm hidm
            rcases List.mem_append.mp hm with hm | hm
            · have := hmax addr' m pub' hm hwm (hidm.trans hid)
              omega
            · simp only [List.mem_singleton, Prod.mk.injEq] at hm
              rw [hm.2]; exact Nat.le_refl _
          · rw [if_neg hlt] at hn'
            simp only [Option.some.injEq] at hn'
            subst hn'
            refine ⟨a0, p0, by simp [hm0], hw0, hid0.trans hid.symm, ?_⟩
            intro addr' m pub' hm hwm hidm
            rcases List.mem_append.mp hm with hm | hm
            · exact hmax addr' m pub' hm hwm (hidm.trans hid)
            · simp only [List.mem_singleton, Prod.mk.injEq] at hm
              rw [hm.2]; omega
      · rw [if_neg hid] at hn'
        obtain ⟨a0, p0, hm0, hw0, hid0, hmax⟩ := h.stored _ _ hn'
        refine ⟨a0, p0, by simp [hm0], hw0, hid0, ?_⟩
        intro addr' m pub' hm hwm hidm
        rcases List.mem_append.mp hm with hm | hm
        · exact hmax addr' m pub' hm hwm hidm
        · simp only [List.mem_singleton, Prod.mk.injEq] at hm
          obtain ⟨rfl, rfl⟩ := hm
          exact absurd (hidm.symm.trans (by rw [hwm.1.unique hw.1])) hid
    · intro addr' m pub' hm hwm
      rw [hnodes, storeNewer_get]
      split
      · split
        · split <;> exact ⟨_, rfl⟩
        · exact ⟨_, rfl⟩
      · rename_i hne
        rcases List.mem_append.mp hm with hm | hm
        · exact h.present addr' m pub' hm hwm
        · simp only [List.mem_singleton, Prod.mk.injEq] at hm
          obtain ⟨rfl, rfl⟩ := hm
          exact absurd (by rw [hwm.1.unique hw.1]) hne
  · have hnodes : (addPublicPeer e s addr n).1.nodes = s.nodes := by rw [heq]
    refine NodesInv.congr (s := s) ?_ hnodes
    constructor
    · intro id n' hn'
      obtain ⟨a0, p0, hm0, hw0, hid0, hmax⟩ := h.stored _ _ hn'
      refine ⟨a0, p0, by simp [hm0], hw0, hid0, ?_⟩
      intro addr' m pub' hm hwm hidm
      rcases List.mem_append.mp hm with hm | hm
      · exact hmax addr' m pub' hm hwm hidm
      · simp only [List.mem_singleton, Prod.mk.injEq] at hm
        obtain ⟨rfl, rfl⟩ := hm
        exact absurd hwm (hnw _)
    · intro addr' m pub' hm hwm
      rcases List.mem_append.mp hm with hm | hm
      · exact h.present addr' m pub' hm hwm
      · simp only [List.mem_singleton, Prod.mk.injEq] at hm
        obtain ⟨rfl, rfl⟩ := hm
        exact absurd hwm (hnw _)

theorem removePublicPeer_nodes (e : PEnv c) (s : PState) (p : Bytes) (ch : List Bytes) :
    (removePublicPeer e s p ch).1.nodes = s.nodes := by
  unfold removePublicPeer
  split
  · rfl
  · simp only []
    split <;> rfl

theorem init_nodes (e : PEnv c) (peers chosen : List Bytes) : (PState.init e peers chosen).nodes = [] := by
  unfold PState.init
  simp only []
  split <;> rfl

theorem nodesInv_run (e : PEnv c) (peers chosen : List Bytes) (as : List PAction) :
    NodesInv e (prun e (PState.init e peers chosen) as) (offers as) := by
  have := prun_inv (e := e) (fun s l => NodesInv e s l) (fun s l addr n h => h.add addr n)
    (fun s l a h h1 h2 => by
      cases a with
      | add addr n => exact absurd rfl (h1 addr n)
      | addMany k => exact absurd rfl (h2 k)
      | remove p ch => exact h.congr (removePublicPeer_nodes e s p ch)
      | refresh ch => exact h.congr rfl
      | exchange k now ch => exact h.congr rfl
      | take => exact h.congr rfl
      | adnl t => exact h.congr rfl) as (PState.init e peers chosen) []
    ⟨fun id n hn => (by rw [init_nodes] at hn; cases hn), fun _ _ _ hm => (by cases hm)⟩
  simpa using this

/-! ## The sets of known peers and neighbours -/

theorem mem_foldl_fifo {cap : Nat} {x : Bytes} (ps : List Bytes) : ∀ q,
    x ∈ ps.foldl (fifoInsert cap) q → x ∈ q ∨ x ∈ ps := by
  induction ps with
  | nil => intro q h; exact .inl h
  | cons p ps ih =>
    intro q h
    rcases ih _ h with h | h
    · unfold fifoInsert at h
      split at h
      · exact .inl h
      · split at h
        · rcases List.mem_append.mp h with h | h
          · exact .inl h
          · exact .inr (by simp [List.mem_singleton.mp h])
        · rcases List.mem_append.mp h with h | h
          · exact .inl (List.mem_of_mem_tail h)
          · exact .inr (by simp [List.mem_singleton.mp h])
    · exact .inr (by simp [h])

theorem mem_extend {s : PeersSet.State Bytes} (h : PeersSet.Inv s) {ps : List Bytes} {x : Bytes}
    (hx : x ∈ (PeersSet.extend s ps).index) : x ∈ s.index ∨ x ∈ ps := by
  have hs := (PeersSet.extend_spec h ps).2.2
  have hx' : x ∈ PeersSet.queue (PeersSet.extend s ps) := (PeersSet.queue_perm _).mem_iff.mpr hx
  rw [hs] at hx'
  rcases mem_foldl_fifo ps _ hx' with h' | h'
  · exact .inl ((PeersSet.queue_perm s).mem_iff.mp h')
  · exact .inr h'

theorem mem_insert {s : PeersSet.State Bytes} (h : PeersSet.Inv s) {p x : Bytes}
    (hx : x ∈ (PeersSet.insert s p).1.index) : x ∈ s.index ∨ x = p := by
  have : x ∈ (PeersSet.extend s [p]).index := hx
  rcases mem_extend h this with h' | h'
  · exact .inl h'
  · exact .inr (List.mem_singleton.mp h')

theorem mem_insert_self {s : PeersSet.State Bytes} (h : PeersSet.Inv s) (p : Bytes) :
    p ∈ (PeersSet.insert s p).1.index := by
  have hq := (PeersSet.insert_spec h p).2.2.2.1
  refine (PeersSet.queue_perm _).mem_iff.mp ?_
  rw [hq]
  unfold fifoInsert
  split
  · assumption
  · split <;> simp

theorem contains_iff {s : PeersSet.State Bytes} (h : PeersSet.Inv s) (p : Bytes) :
    PeersSet.contains s p = true ↔ p ∈ s.index := h.mem_iff p

/-- Well-formed sets. -/
structure SetsInv (e : PEnv c) (s : PState) : Prop where
  known : PeersSet.Inv s.known
  neigh : PeersSet.Inv s.neighbours
  knownCap : s.known.capacity = maxOverlayPeers
  neighCap : s.neighbours.capacity = max 1 e.maxNeighbours
  ignored : s.ignored.Nodup

theorem updateNeighbours_inv {e : PEnv c} {s : PState} (h : SetsInv e s) (ch : List Bytes) (k : Nat) :
    SetsInv e (updateNeighbours s ch k) := by
  have := PeersSet.extend_spec h.neigh (PeersSet.fillOffered ch k (some s.ignored))
  exact ⟨h.known, this.1, h.knownCap, this.2.1.trans h.neighCap, h.ignored⟩

theorem mem_updateNeighbours {e : PEnv c} {s : PState} (h : SetsInv e s) {ch : List Bytes} {k : Nat}
    {x : Bytes} (hx : x ∈ (updateNeighbours s ch k).neighbours.index) :
    x ∈ s.neighbours.index ∨ (x ∈ ch ∧ x ∉ s.ignored) := by
  rcases mem_extend h.neigh (ps := PeersSet.fillOffered ch k (some s.ignored)) hx with h' | h'
  · exact .inl h'
  · have := List.mem_of_mem_take h'
    exact .inr (by simpa using (List.mem_filter.mp this))

theorem setsInv_init (e : PEnv c) (peers ch : List Bytes) : SetsInv e (PState.init e peers ch) := by
  have h0 : SetsInv e (⟨[], [], [], PeersSet.withPeers peers maxOverlayPeers,
      PeersSet.withCapacity e.maxNeighbours, []⟩ : PState) := by
    have := PeersSet.withPeers_spec peers maxOverlayPeers
    exact ⟨this.1, PeersSet.withCapacity_inv _, this.2.1.trans (by decide), rfl, List.nodup_nil⟩
  unfold PState.init
  simp only []
  split
  · exact h0
  · exact updateNeighbours_inv h0 ch _

theorem insertPublicPeer_inv {e : PEnv c} {s : PState} (h : SetsInv e s) (p : Bytes) (n : ONode) :
    SetsInv e (insertPublicPeer s p n) := by
  have h1 := PeersSet.insert_spec h.known p
  have h2 := PeersSet.insert_spec h.neigh p
  refine ⟨h1.1, ?_, h1.2.1.trans h.knownCap, ?_, h.ignored.erase p⟩
  · show PeersSet.Inv (if _ then _ else _)
    split
    · exact h.neigh
    · exact h2.1
  · show (if PeersSet.isFull s.neighbours = true then s.neighbours
      else (PeersSet.insert s.neighbours p).1).capacity = _
    split
    · exact h.neighCap
    · exact h2.2.1.trans h.neighCap

theorem setsInv_add {e : PEnv c} {s : PState} (h : SetsInv e s) (addr : Address.SockAddr) (n : ONode) :
    SetsInv e (addPublicPeer e s addr n).1 := by
  rcases addPublicPeer_cases e s addr n with ⟨pub, t, _, heq⟩ | ⟨_, t, heq⟩ <;> rw [heq]
  · exact insertPublicPeer_inv (s := { s with adnl := t }) ⟨h.1, h.2, h.3, h.4, h.5⟩ _ _
  · exact ⟨h.1, h.2, h.3, h.4, h.5⟩

theorem setsInv_remove {e : PEnv c} {s : PState} (h : SetsInv e s) (p : Bytes) (ch : List Bytes) :
    SetsInv e (removePublicPeer e s p ch).1 := by
  unfold removePublicPeer
  split
  · exact h
  · rename_i hp
    have h0 : SetsInv e { s with ignored := p :: s.ignored } :=
      ⟨h.1, h.2, h.3, h.4, List.nodup_cons.mpr ⟨hp, h.5⟩⟩
    simp only []
    split
    · exact updateNeighbours_inv h0 ch _
    · exact h0

theorem setsInv_other {e : PEnv c} {s : PState} (h : SetsInv e s) (a : PAction)
    (h1 : ∀ addr n, a ≠ .add addr n) (h2 : ∀ l, a ≠ .addMany l) : SetsInv e (pstep e s a) := by
  cases a with
  | add addr n => exact absurd rfl (h1 addr n)
  | addMany k => exact absurd rfl (h2 k)
  | remove p ch => exact setsInv_remove h p ch
  | refresh ch => exact updateNeighbours_inv h ch _
  | exchange k now ch => exact ⟨h.1, h.2, h.3, h.4, h.5⟩
  | take => exact ⟨h.1, h.2, h.3, h.4, h.5⟩
  | adnl t => exact ⟨h.1, h.2, h.3, h.4, h.5⟩

theorem setsInv_run {e : PEnv c} {s : PState} (h : SetsInv e s) (as : List PAction) :
    SetsInv e (prun e s as) :=
  prun_inv (fun s _ => SetsInv e s) (fun _ _ addr n h => setsInv_add h addr n)
    (fun _ _ a h h1 h2 => setsInv_other h a h1 h2) as s [] h

/-! ## Random choices -/

/-- What `choose_multiple` may have returned in a step. -/
def Drawn (e : PEnv c) (s : PState) : PAction → Prop
  | .remove p ch => p ∉ s.ignored → p ∈ s.neighbours.index →
      IsSample ch s.known.index (e.maxNeighbours + (s.ignored.length + 1))
  | .refresh ch => IsSample ch s.known.index (1 + s.ignored.length)
  | .exchange _ _ ch => IsSample ch s.neighbours.index 4
  | _ => True

/-- The random choices of a run are possible ones. -/
def Sampled (e : PEnv c) : PState → List PAction → Prop
  | _, [] => True
  | s, a :: as => Drawn e s a ∧ Sampled e (pstep e s a) as

theorem prun_inv_sampled {e : PEnv c} (P : PState → List (Address.SockAddr × ONode) → Prop)
    (hadd : ∀ s l addr n, P s l → P (addPublicPeer e s addr n).1 (l ++ [(addr, n)]))
    (hother : ∀ s l a, P s l → Drawn e s a → (∀ addr n, a ≠ .add addr n) → (∀ l, a ≠ .addMany l) →
      P (pstep e s a) l)
    (as : List PAction) : ∀ s l, P s l → Sampled e s as → P (prun e s as) (l ++ offers as) := by
  have hmany : ∀ (k : List (Address.SockAddr × ONode)) s l, P s l →
      P (prun e s (k.map fun x => .add x.1 x.2)) (l ++ k) := by
    intro k
    induction k with
    | nil => intro s l h; simpa [prun] using h
    | cons x k ih =>
      intro s l h
      have := ih _ _ (hadd s l x.1 x.2 h)
      simpa [prun, pstep] using this
  induction as with
  | nil => intro s l h _; simpa [prun, offers] using h
  | cons a as ih =>
    intro s l h hs
    rw [offers_cons, ← List.append_assoc]
    refine ih _ _ ?_ hs.2
    have hd := hs.1
    cases a with
    | add addr n => exact hadd s l addr n h
    | addMany k =>
      show P (addPublicPeers e s k).1 (l ++ k)
      rw [(addPublicPeers_eq e k s).1]
      exact hmany k s l h
    | remove p ch => simpa [offersOf] using hother s l (.remove p ch) h hd (by simp) (by simp)
    | refresh ch => simpa [offersOf] using hother s l (.refresh ch) h hd (by simp) (by simp)
    | exchange k now ch => simpa [offersOf] using hother s l (.exchange k now ch) h hd (by simp) (by simp)
    | take => simpa [offersOf] using hother s l .take h hd (by simp) (by simp)
    | adnl t => simpa [offersOf] using hother s l (.adnl t) h hd (by simp) (by simp)

/-- New elements push out the oldest. -/
theorem foldl_fifo_fresh {cap : Nat} (hcap : 0 < cap) (xs : List Bytes) : ∀ q, (q ++ xs).Nodup →
    q.length ≤ cap → xs.foldl (fifoInsert cap) q = (q ++ xs).drop ((q ++ xs).length - cap) := by
  induction xs with
  | nil =>
    intro q _ hl
    have : q.length - cap = 0 := by omega
    simp [this]
  | cons x xs ih =>
    intro q hn hl
    have hx : x ∉ q := by
      intro hc
      have := (List.nodup_append.mp hn).2.2 x hc x (by simp)
      exact this rfl
    have hstep : fifoInsert cap q x = (q ++ [x]).drop ((q ++ [x]).length - cap) := by
      unfold fifoInsert
      rw [if_neg hx]
      split
      · rename_i h
        have : (q ++ [x]).length - cap = 0 := by simp; omega
        rw [this]; rfl
      · rename_i h
        have : (q ++ [x]).length - cap = 1 := by simp; omega
        rw [this]
        cases q with
        | nil => simp at h; omega
        | cons y q => rfl
    have happ : (q ++ [x]).drop ((q ++ [x]).length - cap) ++ xs =
        (q ++ x :: xs).drop ((q ++ [x]).length - cap) := by
      have : q ++ x :: xs = (q ++ [x]) ++ xs := by simp
      rw [this, List.drop_append_of_le_length (l₁ := q ++ [x]) (l₂ := xs) (Nat.sub_le _ _)]
    rw [List.foldl_cons, hstep, ih]
    · rw [happ, List.drop_drop]
      congr 1
      simp only [List.length_drop, List.length_append, List.length_cons, List.length_nil]
      omega
    · rw [happ]
      exact (List.drop_sublist _ _).nodup hn
    · simp only [List.length_drop]; omega

theorem extend_index_perm {s : PeersSet.State Bytes} (h : PeersSet.Inv s) (ps : List Bytes) :
    (PeersSet.extend s ps).index.Perm (ps.foldl (fifoInsert s.capacity) (PeersSet.queue s)) := by
  have := (PeersSet.extend_spec h ps).2.2
  rw [← this]
  exact (PeersSet.queue_perm _).symm

/-- The set filled by `prepare_random_peers`. -/
theorem fresh_fill {chosen : List Bytes} (hn : chosen.Nodup) (hl : chosen.length ≤ 4) :
    (PeersSet.randomlyFillFrom (PeersSet.withCapacity 4) false chosen 4 none).index.Perm chosen := by
  have h0 : PeersSet.Inv (PeersSet.withCapacity 4 : PeersSet.State Bytes) := PeersSet.withCapacity_inv 4
  have := extend_index_perm h0 chosen
  refine this.trans ?_
  show (chosen.foldl (fifoInsert 4) []).Perm chosen
  rw [foldl_fifo_fresh (by decide) chosen [] (by simpa using hn) (by simp)]
  have : chosen.length - 4 = 0 := by omega
  simp [this]

theorem _root_.Verif.Spec.IsSample.nodup {chosen pool : List Bytes} {k : Nat} (h : IsSample chosen pool k)
    (hp : pool.Nodup) : chosen.Nodup := by
  obtain ⟨l, hl, hs⟩ := h.1
  exact hl.symm.nodup_iff.mpr (hs.nodup hp) |> fun x => by simpa using x

theorem _root_.Verif.Spec.IsSample.mem {chosen pool : List Bytes} {k : Nat} (h : IsSample chosen pool k) {x : Bytes}
    (hx : x ∈ chosen) : x ∈ pool := h.1.subset hx

/-- Inserting peers from a small set never pushes anyone out. -/
theorem extend_keeps {U : List Bytes} (ps : List Bytes) : ∀ {s : PeersSet.State Bytes}, PeersSet.Inv s →
    (∀ x ∈ s.index, x ∈ U) → (∀ x ∈ ps, x ∈ U) → U.length < s.capacity →
    ∀ x ∈ s.index, x ∈ (PeersSet.extend s ps).index := by
  induction ps with
  | nil => intro s _ _ _ _ x hx; exact hx
  | cons p ps ih =>
    intro s h hsu hpu hlen x hx
    have hsp := PeersSet.insert_spec h p
    have hle : s.index.length < s.capacity := by
      have := (List.subperm_of_subset h.nodup hsu).length_le
      omega
    show x ∈ (PeersSet.extend (PeersSet.insert s p).1 ps).index
    refine ih hsp.1 ?_ (fun y hy => hpu y (by simp [hy])) (by rw [hsp.2.1]; exact hlen) x ?_
    · intro y hy
      rcases mem_insert h hy with h' | h'
      · exact hsu y h'
      · rw [h']; exact hpu p (by simp)
    · refine (PeersSet.queue_perm _).mem_iff.mp ?_
      rw [hsp.2.2.2.1]
      have hxq : x ∈ PeersSet.queue s := (PeersSet.queue_perm s).mem_iff.mpr hx
      unfold fifoInsert
      split
      · exact hxq
      · rw [if_pos (by rw [(PeersSet.queue_perm s).length_eq]; exact hle)]
        simp [hxq]

theorem insert_length {s : PeersSet.State Bytes} (h : PeersSet.Inv s) (p : Bytes) :
    s.index.length ≤ (PeersSet.insert s p).1.index.length := by
  have hsp := PeersSet.insert_spec h p
  rw [← (PeersSet.queue_perm s).length_eq, ← (PeersSet.queue_perm (PeersSet.insert s p).1).length_eq,
    hsp.2.2.2.1]
  unfold fifoInsert
  split
  · exact Nat.le_refl _
  · split <;> simp [List.length_tail]
    omega

end Verif.Overlay
