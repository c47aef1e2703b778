import Verif.Model.PeerTable
import Verif.Proofs.AMap
import Verif.Props.Address

/-!
# C22: admission to the peer table
-/
namespace Verif.Props
open Verif Verif.PeerTable Verif.Address

variable {ι φ S : Type} [DecidableEq ι]

/-- The peer at this address passes: not ourselves, not our own address, not refused. -/
def admissible (filter : Option (Filter φ ι)) (socketAddr : SockAddr) (localId : ι)
    (ctx : φ) (peerId : ι) (addr : SockAddr) : Prop :=
  peerId ≠ localId ∧ addr ≠ socketAddr ∧ ∀ f, filter = some f → f ctx addr peerId = true

/-- C22, reporting part in full: `true` is reported exactly when the peer is stored afterwards. -/
def C22_report_full : Prop :=
  ∀ (filter : Option (Filter Unit Nat)) (sock : SockAddr) (localId : Nat) (ops : List (Op Nat Unit Unit))
    (ctx : Unit) (peerId : Nat) (addr : SockAddr),
    let peers := run filter sock localId [] ops
    let r := addPeer filter sock localId peers ctx peerId addr ()
    r.2 = true ↔ (r.1.get peerId).isSome = true

/-- False: a known peer announced again at a refused address is reported `false` but stays. -/
theorem C22_report_full_false : ¬ C22_report_full := by
  intro h
  have := h (some (fun _ a _ => a.port = 1)) ⟨1, 2, 3, 4, 5⟩ 0 [.add () 7 ⟨9, 9, 9, 9, 1⟩ ()] () 7
    ⟨9, 9, 9, 9, 2⟩
  revert this; decide

/-- Full report specification that does hold: `true` iff admissible; on `true` the peer is stored
with exactly the given address; on `false` nothing changes. Other peers are never touched. -/
theorem C22_report_partial (filter : Option (Filter φ ι)) (sock : SockAddr) (localId : ι)
    (peers : Peers ι S) (ctx : φ) (peerId : ι) (addr : SockAddr) (fresh : S) :
    let r := addPeer filter sock localId peers ctx peerId addr fresh
    (r.2 = true ↔ admissible filter sock localId ctx peerId addr) ∧
    (r.2 = true → getPeerAddress r.1 peerId = some addr) ∧
    (r.2 = false → r.1 = peers) ∧
    (∀ q, q ≠ peerId → r.1.get q = peers.get q) := by
  simp only [addPeer]
  by_cases h1 : peerId = localId ∨ addr = sock
  · simp only [h1, if_true]
    refine ⟨?_, by simp, by simp, by simp⟩
    simp only [Bool.false_eq_true, false_iff]
    rintro ⟨a, b, _⟩
    rcases h1 with h1 | h1
    · exact a h1
    · exact b h1
  · simp only [h1, if_false]
    by_cases h2 : accepts filter ctx addr peerId = false
    · simp only [h2, if_true]
      refine ⟨?_, by simp, by simp, by simp⟩
      simp only [Bool.false_eq_true, false_iff]
      rintro ⟨_, _, c⟩
      cases hf : filter with
      | none => simp [accepts, hf] at h2
      | some f => simp [accepts, hf, c f hf] at h2
    · simp only [h2, if_false]
      have hadm : admissible filter sock localId ctx peerId addr := by
        refine ⟨fun h => h1 (.inl h), fun h => h1 (.inr h), ?_⟩
        intro f hf
        simpa [accepts, hf] using h2
      cases hg : peers.get peerId with
      | some p =>
        refine ⟨by simp [hadm], ?_, by simp, ?_⟩
        · intro _; simp [getPeerAddress, C23_pack_unpack]
        · intro q hq; simp [AMap.get_put, hq]
      | none =>
        refine ⟨by simp [hadm], ?_, by simp, ?_⟩
        · intro _; simp [getPeerAddress, C23_pack_unpack]
        · intro q hq; simp [AMap.get_put, hq]

/-- Re-adding a known peer keeps its session state whatever the outcome; a new one starts with a
fresh session. -/
theorem C22_readd_keeps_session (filter : Option (Filter φ ι)) (sock : SockAddr) (localId : ι)
    (peers : Peers ι S) (ctx : φ) (peerId : ι) (addr : SockAddr) (fresh : S) :
    let r := addPeer filter sock localId peers ctx peerId addr fresh
    (∀ p, peers.get peerId = some p → ∃ p', r.1.get peerId = some p' ∧ p'.session = p.session) ∧
    (peers.get peerId = none → ∀ p', r.1.get peerId = some p' → p'.session = fresh) := by
  simp only [addPeer]
  split
  · refine ⟨fun p hp => ⟨p, hp, rfl⟩, fun hn p' hp' => ?_⟩
    rw [hn] at hp'; cases hp'
  · split
    · refine ⟨fun p hp => ⟨p, hp, rfl⟩, fun hn p' hp' => ?_⟩
      rw [hn] at hp'; cases hp'
    · cases hg : peers.get peerId with
      | some p =>
        refine ⟨fun p0 hp => ?_, by simp⟩
        cases hp
        exact ⟨{ p with addr := pack addr }, by simp, rfl⟩
      | none =>
        refine ⟨by simp, fun _ p' hp' => ?_⟩
        simp at hp'
        rw [← hp']

/-- After any history, for any filter: the node itself is not stored, no stored peer has the node's
own socket address, and every stored peer is at an address the filter accepted. -/
theorem C22_stored_peers_admissible (filter : Option (Filter φ ι)) (sock : SockAddr) (localId : ι)
    (ops : List (Op ι φ S)) (peerId : ι) (addr : SockAddr)
    (h : getPeerAddress (run filter sock localId [] ops) peerId = some addr) :
    ∃ ctx, admissible filter sock localId ctx peerId addr := by
  have key : ∀ (ops : List (Op ι φ S)) (peers : Peers ι S),
      (∀ q a, getPeerAddress peers q = some a → ∃ ctx, admissible filter sock localId ctx q a) →
      ∀ q a, getPeerAddress (run filter sock localId peers ops) q = some a →
        ∃ ctx, admissible filter sock localId ctx q a := by
    intro ops
    induction ops with
    | nil => intro peers hp; exact hp
    | cons o ops ih =>
      intro peers hp
      apply ih
      intro q a hq
      cases o with
      | add ctx p a' s =>
        simp only [step] at hq
        obtain ⟨r1, r2, r3, r4⟩ := C22_report_partial filter sock localId peers ctx p a' s
        cases hr : (addPeer filter sock localId peers ctx p a' s).2 with
        | false => rw [r3 hr] at hq; exact hp q a hq
        | true =>
          by_cases hqp : q = p
          · subst hqp
            have h5 := r2 hr
            rw [h5] at hq
            cases hq
            exact ⟨ctx, r1.mp hr⟩
          · simp only [getPeerAddress, r4 q hqp] at hq
            exact hp q a hq
      | remove p =>
        simp only [step, removePeer, getPeerAddress, AMap.get_erase] at hq
        split at hq
        · simp at hq
        · exact hp q a hq
      | touch p f =>
        apply hp q a
        simp only [step, touch] at hq
        cases hg : peers.get p with
        | none => simp only [hg] at hq; exact hq
        | some p0 =>
          simp only [hg, getPeerAddress, AMap.get_put] at hq
          split at hq
          · rename_i he; subst he
            simp only [getPeerAddress, hg]; simpa using hq
          · exact hq
  exact key ops [] (by intro q a hq; simp [getPeerAddress, AMap.get] at hq) peerId addr h

/-- Removing forgets exactly that peer and reports whether it was known. -/
theorem C22_remove (peers : Peers ι S) (peerId : ι) :
    ((removePeer peers peerId).2 = true ↔ (peers.get peerId).isSome = true) ∧
    (removePeer peers peerId).1.get peerId = none ∧
    ∀ q, q ≠ peerId → (removePeer peers peerId).1.get q = peers.get q := by
  refine ⟨Iff.rfl, by simp [removePeer, AMap.get_erase], ?_⟩
  intro q hq; simp [removePeer, AMap.get_erase, hq]

example :
    let f : Option (Filter Unit Nat) := some (fun _ a _ => a.port ≠ 9)
    let ps := run f ⟨1, 1, 1, 1, 1⟩ 0 [] [.add () 5 ⟨2, 2, 2, 2, 2⟩ 100, .add () 0 ⟨3, 3, 3, 3, 3⟩ 1,
      .add () 6 ⟨1, 1, 1, 1, 1⟩ 1, .add () 7 ⟨2, 2, 2, 2, 9⟩ 1, .touch 5 (· + 1),
      .add () 5 ⟨4, 4, 4, 4, 4⟩ 1]
    ps.map (fun e => (e.1, unpack e.2.addr, e.2.session)) = [(5, ⟨4, 4, 4, 4, 4⟩, 101)] := by decide

example := C22_stored_peers_admissible (S := Nat) (some (fun (_ : Unit) a _ => a.port ≠ 9)) ⟨1, 1, 1, 1, 1⟩ (0 : Nat)
  [.add () 5 ⟨2, 2, 2, 2, 2⟩ 100, .add () 0 ⟨3, 3, 3, 3, 3⟩ 1] 5 ⟨2, 2, 2, 2, 2⟩ (by decide)

end Verif.Props
