import Verif.Model.OverlayPeersConc
import Verif.Props.OverlayPeers

/-!
# C137: the peers of an overlay, changed by several calls at once
-/
namespace Verif.Overlay.PeersConc
open Verif.Overlay Verif.AdnlProto Verif.DhtProto Verif.Spec Verif.Props

variable {c : Crypto}

/-! ## Vocabulary -/

/-- Everything offered to `add_public_peer(s)` by the calls begun. -/
def offeredTo : List Act → List (Address.SockAddr × ONode)
  | [] => []
  | .begin (.add l) :: as => l ++ offeredTo as
  | _ :: as => offeredTo as

/-- What `choose_multiple` may have returned in a step: peers of the set it draws from, as many as asked for or all. -/
def DrawnAt (w : World) : Act → Prop
  | .step i chosen =>
    match w.calls[i]? with
    | some (.draw _ k) => IsSample chosen w.peers.known.index k
    | some (.sample _) => IsSample chosen w.peers.neighbours.index 4
    | _ => True
  | _ => True

/-- The random choices of a run are possible ones. -/
def Draws (e : PEnv c) : World → List Act → Prop
  | _, [] => True
  | w, a :: as => DrawnAt w a ∧ Draws e (wstep e w a) as

/-- Every call has returned. -/
def Quiet (w : World) : Prop := ∀ pc ∈ w.calls, pc = .over

/-! ## Lemmas -/

theorem tstep_offer (e : PEnv c) (s : PState) (ch : List Bytes) (addr : Address.SockAddr) (n : ONode)
    (rest : List (Address.SockAddr × ONode)) :
    (∃ pub t, Welcome e addr n pub ∧
      tstep e s ch (.offer ((addr, n) :: rest)) = ({ s with adnl := t }, .unignore (Node.shortId c pub) n rest, none) ∧
      addPublicPeer e s addr n = (insertPublicPeer { s with adnl := t } (Node.shortId c pub) n, .ok (some (Node.shortId c pub)))) ∨
    ((∀ pub, ¬ Welcome e addr n pub) ∧ ∃ t,
      tstep e s ch (.offer ((addr, n) :: rest)) = ({ s with adnl := t }, .offer rest, none) ∧
      addPublicPeer e s addr n = ({ s with adnl := t }, .ok none)) := by
  have hc := addPublicPeer_cases e s addr n
  unfold addPublicPeer at hc ⊢
  simp only [tstep]
  by_cases hv : Storage.verifyONode c e.overlay n = false
  · rw [if_pos hv] at hc
    rw [if_pos hv, if_pos hv]
    rcases hc with ⟨pub, t, hw, _⟩ | ⟨hn, t, ht⟩
    · rw [verifyONode_iff.mpr ⟨pub, hw.1⟩] at hv; cases hv
    · exact .inr ⟨hn, s.adnl, rfl, rfl⟩
  · rw [if_neg hv] at hc
    rw [if_neg hv, if_neg hv]
    obtain ⟨pub, hg⟩ := verifyONode_iff.mp (by simpa using hv)
    rw [hg.2.1] at hc ⊢
    simp only [] at hc ⊢
    by_cases hr : (PeerTable.addPeer e.filter e.socketAddr e.localId s.adnl () (Node.shortId c pub) addr ()).2 = true
    · rw [if_pos hr] at hc
      rw [if_pos hr, if_pos hr]
      rcases hc with ⟨q, t, hw, _⟩ | ⟨_, t, ht⟩
      · obtain rfl := hw.1.unique hg
        exact .inl ⟨q, _, hw, rfl, rfl⟩
      · simp at ht
    · rw [if_neg hr] at hc
      rw [if_neg hr, if_neg hr]
      rcases hc with ⟨q, t, hw, ht⟩ | ⟨hn, t, ht⟩
      · simp at ht
      · exact .inr ⟨hn, _, rfl, rfl⟩

/-- What a call still has to do with records. -/
def todo : Pc → List (Address.SockAddr × ONode)
  | .offer l => l
  | .unignore _ _ l | .know _ _ l | .room _ _ l | .join _ _ l | .store _ _ l => l
  | _ => []

/-- The record being added. -/
def adding : Pc → Option (Bytes × ONode)
  | .unignore p n _ | .know p n _ | .room p n _ | .join p n _ | .store p n _ => some (p, n)
  | _ => none

/-- What a call may hold. -/
structure PcInv (e : PEnv c) (peers : List Bytes) (l : List (Address.SockAddr × ONode)) (pc : Pc) : Prop where
  todo : ∀ x ∈ todo pc, x ∈ l
  adding : ∀ p n, adding pc = some (p, n) → ∃ addr pub, (addr, n) ∈ l ∧ Welcome e addr n pub ∧ Node.shortId c pub = p
  pick : ∀ amount left picked, pc = .pick amount left picked → ∀ x, x ∈ left ∨ x ∈ picked → Member e peers l x

theorem PcInv.mono {e : PEnv c} {peers : List Bytes} {l l' : List (Address.SockAddr × ONode)} {pc : Pc}
    (h : PcInv e peers l pc) (hl : ∀ y ∈ l, y ∈ l') : PcInv e peers l' pc := by
  refine ⟨fun x hx => hl _ (h.todo x hx), fun p n hp => ?_, fun a b d hd x hx => (h.pick a b d hd x hx).mono hl⟩
  obtain ⟨addr, pub, h1, h2, h3⟩ := h.adding p n hp
  exact ⟨addr, pub, hl _ h1, h2, h3⟩

structure PeersInv (e : PEnv c) (peers : List Bytes) (l : List (Address.SockAddr × ONode)) (s : PState) : Prop where
  sets : SetsInv e s
  known : ∀ x ∈ s.known.index, Member e peers l x
  neigh : ∀ x ∈ s.neighbours.index, Member e peers l x
  stored : ∀ id n, s.nodes.get id = some n → ∃ addr pub, (addr, n) ∈ l ∧ Welcome e addr n pub ∧ Node.shortId c pub = id

theorem PeersInv.mono {e : PEnv c} {peers : List Bytes} {l l' : List (Address.SockAddr × ONode)} {s : PState}
    (h : PeersInv e peers l s) (hl : ∀ y ∈ l, y ∈ l') : PeersInv e peers l' s := by
  refine ⟨h.sets, fun x hx => (h.known x hx).mono hl, fun x hx => (h.neigh x hx).mono hl, fun id n hn => ?_⟩
  obtain ⟨addr, pub, h1, h2, h3⟩ := h.stored id n hn
  exact ⟨addr, pub, hl _ h1, h2, h3⟩

theorem pcInv_none {e : PEnv c} {peers : List Bytes} {l : List (Address.SockAddr × ONode)} {pc : Pc}
    (h1 : todo pc = []) (h2 : adding pc = none) (h3 : ∀ a b d, pc ≠ .pick a b d) : PcInv e peers l pc :=
  ⟨fun x hx => (by rw [h1] at hx; cases hx), fun p n hp => (by rw [h2] at hp; cases hp),
    fun a b d hd => absurd hd (h3 a b d)⟩

/-- One step of one call. -/
theorem tstep_inv {e : PEnv c} {peers : List Bytes} {l : List (Address.SockAddr × ONode)} {s : PState} {pc : Pc}
    {ch : List Bytes} (hs : PeersInv e peers l s) (hp : PcInv e peers l pc)
    (hd : ∀ a k, pc = .draw a k → ∀ x ∈ ch, x ∈ s.known.index) :
    PeersInv e peers l (tstep e s ch pc).1 ∧ PcInv e peers l (tstep e s ch pc).2.1 := by
  have hcur : ∀ p n, adding pc = some (p, n) → Member e peers l p := fun p n h => by
    obtain ⟨addr, pub, h1, h2, h3⟩ := hp.adding p n h
    exact .inr ⟨addr, n, pub, h1, h2, h3⟩
  cases pc with
  | offer ll =>
    cases ll with
    | nil => exact ⟨hs, pcInv_none rfl rfl (by simp [tstep])⟩
    | cons x rest =>
      obtain ⟨addr, n⟩ := x
      rcases tstep_offer e s ch addr n rest with ⟨pub, t, hw, heq, -⟩ | ⟨-, t, heq, -⟩
      · rw [heq]
        refine ⟨⟨⟨hs.1.1, hs.1.2, hs.1.3, hs.1.4, hs.1.5⟩, hs.2, hs.3, hs.4⟩, fun y hy => hp.todo y (List.mem_cons_of_mem _ hy), ?_,
          fun a b d hd => by cases hd⟩
        intro p m h
        cases h
        exact ⟨addr, pub, hp.todo _ (List.mem_cons_self ..), hw, rfl⟩
      · rw [heq]
        exact ⟨⟨⟨hs.1.1, hs.1.2, hs.1.3, hs.1.4, hs.1.5⟩, hs.2, hs.3, hs.4⟩, fun y hy => hp.todo y (List.mem_cons_of_mem _ hy),
          fun p m h => by (cases h), fun a b d hd => by cases hd⟩
  | unignore p n rest =>
    exact ⟨⟨⟨hs.1.1, hs.1.2, hs.1.3, hs.1.4, hs.1.5.erase p⟩, hs.2, hs.3, hs.4⟩, hp.todo, hp.adding, fun a b d hd => by cases hd⟩
  | know p n rest =>
    have h1 := PeersSet.insert_spec hs.1.known p
    refine ⟨⟨⟨h1.1, hs.1.2, h1.2.1.trans hs.1.3, hs.1.4, hs.1.5⟩, fun x hx => ?_, hs.3, hs.4⟩, hp.todo, hp.adding, fun a b d hd => by cases hd⟩
    rcases mem_insert hs.1.known hx with hx | rfl
    · exact hs.2 x hx
    · exact hcur _ _ rfl
  | room p n rest =>
    refine ⟨hs, ?_⟩
    simp only [tstep]
    split
    · exact ⟨hp.todo, hp.adding, fun a b d hd => by cases hd⟩
    · exact ⟨hp.todo, hp.adding, fun a b d hd => by cases hd⟩
  | join p n rest =>
    have h1 := PeersSet.insert_spec hs.1.neigh p
    refine ⟨⟨⟨hs.1.1, h1.1, hs.1.3, h1.2.1.trans hs.1.4, hs.1.5⟩, hs.2, fun x hx => ?_, hs.4⟩, hp.todo, hp.adding, fun a b d hd => by cases hd⟩
    rcases mem_insert hs.1.neigh hx with hx | rfl
    · exact hs.3 x hx
    · exact hcur _ _ rfl
  | store p n rest =>
    refine ⟨⟨⟨hs.1.1, hs.1.2, hs.1.3, hs.1.4, hs.1.5⟩, hs.2, hs.3, fun id m hm => ?_⟩, hp.todo, fun p m h => by (cases h), fun a b d hd => by cases hd⟩
    have hm' : (storeNewer s.nodes p n).get id = some m := hm
    rw [storeNewer_get] at hm'
    obtain ⟨addr, pub, h1, h2, h3⟩ := hp.adding p n rfl
    by_cases hid : id = p
    · rw [if_pos hid] at hm'
      cases ho : s.nodes.get p with
      | none =>
        rw [ho] at hm'
        cases hm'
        exact ⟨addr, pub, h1, h2, h3.trans hid.symm⟩
      | some old =>
        rw [ho] at hm'
        simp only [] at hm'
        split at hm'
        · cases hm'
          exact ⟨addr, pub, h1, h2, h3.trans hid.symm⟩
        · cases hm'
          rw [hid]
          exact hs.4 p _ ho
    · rw [if_neg hid] at hm'
      exact hs.4 id m hm'
  | mark p =>
    simp only [tstep]
    split
    · exact ⟨hs, pcInv_none rfl rfl (by simp)⟩
    · rename_i hi
      exact ⟨⟨⟨hs.1.1, hs.1.2, hs.1.3, hs.1.4, List.nodup_cons.mpr ⟨hi, hs.1.5⟩⟩, hs.2, hs.3, hs.4⟩, pcInv_none rfl rfl (by simp)⟩
  | seek p =>
    refine ⟨hs, ?_⟩
    simp only [tstep]
    split
    · exact pcInv_none rfl rfl (by simp)
    · exact pcInv_none rfl rfl (by simp)
  | size amount => exact ⟨hs, pcInv_none rfl rfl (by simp [tstep])⟩
  | draw amount k =>
    refine ⟨hs, fun x hx => by (cases hx), fun p n h => by (cases h), fun a b d heq x hx => ?_⟩
    cases heq
    rcases hx with hx | hx
    · exact hs.2 x (hd amount k rfl x hx)
    · cases hx
  | pick amount left picked =>
    have hin : ∀ x, x ∈ left ∨ x ∈ picked → Member e peers l x := hp.pick amount left picked rfl
    have hext := PeersSet.extend_spec hs.1.neigh picked
    have hend : PeersInv e peers l { s with neighbours := PeersSet.extend s.neighbours picked } := by
      refine ⟨⟨hs.1.1, hext.1, hs.1.3, hext.2.1.trans hs.1.4, hs.1.5⟩, hs.2, fun x hx => ?_, hs.4⟩
      rcases mem_extend hs.1.neigh hx with hx | hx
      · exact hs.3 x hx
      · exact hin x (.inr hx)
    cases left with
    | nil => exact ⟨hend, pcInv_none rfl rfl (by simp [tstep])⟩
    | cons y left =>
      simp only [tstep]
      split
      · refine ⟨hs, fun x hx => by (cases hx), fun p n h => by (cases h), fun a b d heq x hx => ?_⟩
        simp only [Pc.pick.injEq] at heq
        obtain ⟨-, rfl, rfl⟩ := heq
        rcases hx with hx | hx
        · exact hin x (.inl (List.mem_cons_of_mem _ hx))
        · split at hx
          · exact hin x (.inr hx)
          · rcases List.mem_append.mp hx with hx | hx
            · exact hin x (.inr hx)
            · rw [List.mem_singleton] at hx
              exact hin x (.inl (by rw [hx]; exact List.mem_cons_self ..))
      · exact ⟨hend, pcInv_none rfl rfl (by simp)⟩
  | hear ll now => exact ⟨⟨⟨hs.1.1, hs.1.2, hs.1.3, hs.1.4, hs.1.5⟩, hs.2, hs.3, hs.4⟩, pcInv_none rfl rfl (by simp [tstep])⟩
  | sample now => exact ⟨hs, pcInv_none rfl rfl (by simp [tstep])⟩
  | gather left out =>
    cases left with
    | nil => exact ⟨hs, pcInv_none rfl rfl (by simp [tstep])⟩
    | cons x left => exact ⟨hs, pcInv_none rfl rfl (by simp [tstep])⟩
  | take => exact ⟨⟨⟨hs.1.1, hs.1.2, hs.1.3, hs.1.4, hs.1.5⟩, hs.2, hs.3, hs.4⟩, pcInv_none rfl rfl (by simp [tstep])⟩
  | over => exact ⟨hs, hp⟩

/-- What a single step offers. -/
def offeredBy : Act → List (Address.SockAddr × ONode)
  | .begin (.add l) => l
  | _ => []

theorem offeredTo_cons (a : Act) (as : List Act) : offeredTo (a :: as) = offeredBy a ++ offeredTo as := by
  cases a with
  | begin k => cases k <;> rfl
  | step i ch => rfl
  | adnl t => rfl

structure WInv (e : PEnv c) (peers : List Bytes) (l : List (Address.SockAddr × ONode)) (w : World) : Prop where
  state : PeersInv e peers l w.peers
  calls : ∀ pc ∈ w.calls, PcInv e peers l pc

theorem wstep_inv {e : PEnv c} {peers : List Bytes} {l : List (Address.SockAddr × ONode)} {w : World} (h : WInv e peers l w)
    (a : Act) (hd : DrawnAt w a) : WInv e peers (l ++ offeredBy a) (wstep e w a) := by
  have hl : ∀ y ∈ l, y ∈ l ++ offeredBy a := fun y hy => List.mem_append_left _ hy
  cases a with
  | begin k =>
    refine ⟨h.1.mono hl, fun pc hpc => ?_⟩
    rcases List.mem_append.mp hpc with hpc | hpc
    · exact (h.2 pc hpc).mono hl
    · rw [List.mem_singleton] at hpc
      subst hpc
      cases k with
      | add ll => exact ⟨fun x hx => List.mem_append_right _ hx, fun p n hp => (by cases hp), fun _ _ _ hd => (by cases hd)⟩
      | remove p => exact pcInv_none rfl rfl (by simp [Call.start])
      | refresh => exact pcInv_none rfl rfl (by simp [Call.start])
      | exchange ll now => exact pcInv_none rfl rfl (by simp [Call.start])
      | take => exact pcInv_none rfl rfl (by simp [Call.start])
  | step i ch =>
    simp only [wstep]
    cases hi : w.calls[i]? with
    | none => exact ⟨h.1.mono hl, fun pc hpc => (h.2 pc hpc).mono hl⟩
    | some pc =>
      have hmem : pc ∈ w.calls := List.mem_of_getElem? hi
      have := tstep_inv (ch := ch) h.1 (h.2 pc hmem) (fun a k hpc x hx => by
        subst hpc
        simp only [DrawnAt, hi] at hd
        exact hd.mem hx)
      refine ⟨this.1.mono hl, fun pc' hpc' => ?_⟩
      rcases List.mem_or_eq_of_mem_set hpc' with hpc' | rfl
      · exact (h.2 pc' hpc').mono hl
      · exact this.2.mono hl
  | adnl t =>
    exact ⟨PeersInv.mono (s := { w.peers with adnl := t })
        ⟨⟨h.1.1.1, h.1.1.2, h.1.1.3, h.1.1.4, h.1.1.5⟩, h.1.2, h.1.3, h.1.4⟩ hl,
      fun pc hpc => (h.2 pc hpc).mono hl⟩

theorem wrun_inv {e : PEnv c} {peers : List Bytes} (as : List Act) : ∀ (l : List (Address.SockAddr × ONode)) (w : World),
    WInv e peers l w → Draws e w as → WInv e peers (l ++ offeredTo as) (wrun e w as) := by
  induction as with
  | nil => intro l w h _; simpa [offeredTo, wrun] using h
  | cons a as ih =>
    intro l w h hd
    rw [offeredTo_cons, ← List.append_assoc]
    exact ih _ _ (wstep_inv h a hd.1) hd.2

theorem winv_init (e : PEnv c) (peers ch0 : List Bytes) (h0 : SampledInit e peers ch0) :
    WInv e peers [] (World.init e peers ch0) := by
  refine ⟨⟨setsInv_init e peers ch0, fun x hx => ?_, fun x hx => ?_, fun id n hn => ?_⟩, fun pc hpc => by cases hpc⟩
  · exact .inl (mem_withPeers (by rw [← init_known e peers ch0]; exact hx))
  · exact .inl (mem_withPeers (init_neighbours h0 hx))
  · have : (PState.init e peers ch0).nodes.get id = some n := hn
    rw [init_nodes] at this
    cases this

/-- C137: whatever the order of the steps, the known peers and the neighbours are peers given at the start or once
welcomed, none twice and not more than there is room for; and every stored record was offered, is signed for the overlay
by the node it is stored for, and is not of the local node. -/
theorem C137_members_partial (e : PEnv c) (peers ch0 : List Bytes) (as : List Act) (h0 : SampledInit e peers ch0)
    (hd : Draws e (World.init e peers ch0) as) :
    let s := (wrun e (World.init e peers ch0) as).peers
    (∀ x, x ∈ s.known.index ∨ x ∈ s.neighbours.index → Member e peers (offeredTo as) x) ∧
    s.known.index.Nodup ∧ s.neighbours.index.Nodup ∧
    s.known.index.length ≤ 65536 ∧ s.neighbours.index.length ≤ max 1 e.maxNeighbours ∧
    ∀ id n, s.nodes.get id = some n → id ≠ e.localId ∧
      ∃ addr pub, (addr, n) ∈ offeredTo as ∧ Genuine c e.overlay n pub ∧ Node.shortId c pub = id := by
  intro s
  have h := wrun_inv as [] _ (winv_init e peers ch0 h0) hd
  rw [List.nil_append] at h
  have hs := h.1.sets
  refine ⟨fun x hx => hx.elim (h.1.known x) (h.1.neigh x), hs.known.nodup, hs.neigh.nodup, ?_, ?_, fun id n hn => ?_⟩
  · have := hs.known.le
    rw [hs.knownCap] at this
    exact this
  · have := hs.neigh.le
    rw [hs.neighCap] at this
    exact this
  · obtain ⟨addr, pub, h1, h2, h3⟩ := h.1.stored id n hn
    exact ⟨h3 ▸ h2.2.1, addr, pub, h1, h2.1, h3⟩

/-! ### Nothing offered gets lost -/

/-- The call has still to deal with this record of node `p`. -/
def Holds (x : Address.SockAddr × ONode) (p : Bytes) (pc : Pc) : Prop := x ∈ todo pc ∨ adding pc = some (p, x.2)

/-- A record of `p` at least as new as `m` is stored. -/
def Has (s : PState) (p : Bytes) (v : Nat) : Prop := ∃ n, s.nodes.get p = some n ∧ v ≤ n.version

theorem storeNewer_has {m : AMap Bytes ONode} {k p : Bytes} {n o : ONode} (h : m.get p = some o) :
    ∃ o', (storeNewer m k n).get p = some o' ∧ o.version ≤ o'.version := by
  rw [storeNewer_get]
  by_cases hp : p = k
  · subst hp
    rw [if_pos rfl, h]
    simp only []
    split
    · rename_i hlt; exact ⟨n, rfl, Nat.le_of_lt hlt⟩
    · exact ⟨o, rfl, Nat.le_refl _⟩
  · rw [if_neg hp]
    exact ⟨o, h, Nat.le_refl _⟩

theorem storeNewer_self (m : AMap Bytes ONode) (k : Bytes) (n : ONode) :
    ∃ o', (storeNewer m k n).get k = some o' ∧ n.version ≤ o'.version := by
  rw [storeNewer_get, if_pos rfl]
  cases m.get k with
  | none => exact ⟨n, rfl, Nat.le_refl _⟩
  | some old =>
    simp only []
    split
    · exact ⟨n, rfl, Nat.le_refl _⟩
    · rename_i hlt; exact ⟨old, rfl, Nat.le_of_not_lt hlt⟩

/-- Only `store` changes the records. -/
theorem tstep_nodes (e : PEnv c) (s : PState) (ch : List Bytes) (pc : Pc) :
    (tstep e s ch pc).1.nodes = s.nodes ∨
    ∃ p n rest, pc = .store p n rest ∧ (tstep e s ch pc).1.nodes = storeNewer s.nodes p n := by
  cases pc with
  | offer l =>
    cases l with
    | nil => exact .inl rfl
    | cons x rest =>
      obtain ⟨addr, n⟩ := x
      rcases tstep_offer e s ch addr n rest with ⟨pub, t, hw, heq, -⟩ | ⟨-, t, heq, -⟩ <;> rw [heq] <;> exact .inl rfl
  | store p n rest => exact .inr ⟨p, n, rest, rfl, rfl⟩
  | mark p => left; simp only [tstep]; split <;> rfl
  | pick a left picked =>
    left
    cases left with
    | nil => rfl
    | cons x left => simp only [tstep]; split <;> rfl
  | gather left out => cases left <;> exact .inl rfl
  | _ => exact .inl rfl

theorem tstep_has {e : PEnv c} {s : PState} {ch : List Bytes} {pc : Pc} {p : Bytes} {v : Nat} (h : Has s p v) :
    Has (tstep e s ch pc).1 p v := by
  obtain ⟨n, hn, hv⟩ := h
  rcases tstep_nodes e s ch pc with h | ⟨q, m, rest, -, h⟩
  · exact ⟨n, by rw [h]; exact hn, hv⟩
  · obtain ⟨o, ho, hle⟩ := storeNewer_has (k := q) (n := m) hn
    exact ⟨o, by rw [h]; exact ho, Nat.le_trans hv hle⟩

theorem tstep_holds {e : PEnv c} {s : PState} {ch : List Bytes} {pc : Pc} {addr : Address.SockAddr} {m : ONode} {pub : c.Pub}
    (hw : Welcome e addr m pub) (h : Holds (addr, m) (Node.shortId c pub) pc) :
    Has (tstep e s ch pc).1 (Node.shortId c pub) m.version ∨ Holds (addr, m) (Node.shortId c pub) (tstep e s ch pc).2.1 := by
  cases pc with
  | offer l =>
    rcases h with h | h
    · cases l with
      | nil => cases h
      | cons x rest =>
        obtain ⟨addr', n⟩ := x
        right
        rcases tstep_offer e s ch addr' n rest with ⟨q, t, hq, heq, -⟩ | ⟨hn, t, heq, -⟩ <;> rw [heq]
        · rcases List.mem_cons.mp h with h | h
          · cases h
            exact .inr (by rw [hw.1.unique hq.1]; rfl)
          · exact .inl h
        · rcases List.mem_cons.mp h with h | h
          · cases h
            exact absurd hw (hn pub)
          · exact .inl h
    · cases h
  | unignore p n rest => exact .inr h
  | know p n rest => exact .inr h
  | room p n rest => right; simp only [tstep]; split <;> exact h
  | join p n rest => exact .inr h
  | store p n rest =>
    rcases h with h | h
    · exact .inr (.inl h)
    · left
      simp only [adding, Option.some.injEq, Prod.mk.injEq] at h
      obtain ⟨rfl, rfl⟩ := h
      exact storeNewer_self _ _ _
  | _ => rcases h with h | h <;> cases h

/-- Every welcome record offered is stored, or replaced by one as new, or still in the hands of a call. -/
def Kept (e : PEnv c) (l : List (Address.SockAddr × ONode)) (w : World) : Prop :=
  ∀ addr m pub, (addr, m) ∈ l → Welcome e addr m pub → Has w.peers (Node.shortId c pub) m.version ∨
    ∃ pc ∈ w.calls, Holds (addr, m) (Node.shortId c pub) pc

theorem wstep_kept {e : PEnv c} {l : List (Address.SockAddr × ONode)} {w : World} (h : Kept e l w) (a : Act) :
    Kept e (l ++ offeredBy a) (wstep e w a) := by
  intro addr m pub hm hw
  cases a with
  | begin k =>
    rcases List.mem_append.mp hm with hm | hm
    · rcases h addr m pub hm hw with h | ⟨pc, hpc, h⟩
      · exact .inl h
      · exact .inr ⟨pc, List.mem_append_left _ hpc, h⟩
    · cases k with
      | add ll => exact .inr ⟨.offer ll, List.mem_append_right _ (List.mem_singleton.mpr rfl), .inl hm⟩
      | _ => cases hm
  | step i ch =>
    have hm : (addr, m) ∈ l := by simpa [offeredBy] using hm
    simp only [wstep]
    cases hi : w.calls[i]? with
    | none => exact h addr m pub hm hw
    | some pc =>
      have hlt : i < w.calls.length := (List.getElem?_eq_some_iff.mp hi).1
      rcases h addr m pub hm hw with h | ⟨pc', hpc', h⟩
      · exact .inl (tstep_has h)
      · obtain ⟨j, hj⟩ := List.mem_iff_getElem?.mp hpc'
        by_cases hij : i = j
        · subst hij
          rw [hi] at hj
          cases hj
          rcases tstep_holds (s := w.peers) (ch := ch) hw h with h | h
          · exact .inl h
          · exact .inr ⟨_, List.mem_iff_getElem?.mpr ⟨i, by rw [List.getElem?_set_self hlt]⟩, h⟩
        · exact .inr ⟨pc', List.mem_iff_getElem?.mpr ⟨j, by rw [List.getElem?_set_ne hij]; exact hj⟩, h⟩
  | adnl t =>
    exact h addr m pub (by simpa [offeredBy] using hm) hw

theorem wrun_kept {e : PEnv c} (as : List Act) : ∀ (l : List (Address.SockAddr × ONode)) (w : World),
    Kept e l w → Kept e (l ++ offeredTo as) (wrun e w as) := by
  induction as with
  | nil => intro l w h; simpa [offeredTo, wrun] using h
  | cons a as ih =>
    intro l w h
    rw [offeredTo_cons, ← List.append_assoc]
    exact ih _ _ (wstep_kept h a)

theorem wstep_has {e : PEnv c} {w : World} {p : Bytes} {v : Nat} (h : Has w.peers p v) (a : Act) :
    Has (wstep e w a).peers p v := by
  cases a with
  | begin k => exact h
  | step i ch =>
    simp only [wstep]
    cases w.calls[i]? with
    | none => exact h
    | some pc => exact tstep_has h
  | adnl t => exact h

/-- C137: whatever the order of the steps, the version stored for a node never goes down, and once all calls have returned
the record stored for a node is the newest of its welcome records, and there is one for every node with a welcome record. -/
theorem C137_newest_partial (e : PEnv c) (peers ch0 : List Bytes) (as : List Act) (h0 : SampledInit e peers ch0)
    (hd : Draws e (World.init e peers ch0) as) :
    let w := wrun e (World.init e peers ch0) as
    (∀ id n, w.peers.nodes.get id = some n → ∀ as', ∃ n', (wrun e w as').peers.nodes.get id = some n' ∧
      n.version ≤ n'.version) ∧
    (Quiet w → ∀ addr m pub, (addr, m) ∈ offeredTo as → Welcome e addr m pub →
      ∃ n, w.peers.nodes.get (Node.shortId c pub) = some n ∧ m.version ≤ n.version ∧
        ∃ addr', (addr', n) ∈ offeredTo as) := by
  intro w
  constructor
  · intro id n hn as'
    have key : ∀ (as : List Act) (w : World), Has w.peers id n.version → Has (wrun e w as).peers id n.version := by
      intro as
      induction as with
      | nil => intro w h; exact h
      | cons a as ih => intro w h; exact ih _ (wstep_has h a)
    exact key as' w ⟨n, hn, Nat.le_refl _⟩
  · intro hq addr m pub hm hw
    have hk := wrun_kept (e := e) as [] (World.init e peers ch0) (fun _ _ _ h => by cases h)
    rw [List.nil_append] at hk
    rcases hk addr m pub hm hw with ⟨n, hn, hv⟩ | ⟨pc, hpc, h⟩
    · obtain ⟨-, addr', q, h1, -⟩ := (C137_members_partial e peers ch0 as h0 hd).2.2.2.2.2 _ n hn
      exact ⟨n, hn, hv, addr', h1⟩
    · rw [hq pc hpc] at h
      rcases h with h | h <;> cases h

/-! ### A removed peer stays out -/

/-- The call may let `p` in: it has a record of `p` to add, or has picked `p`. -/
def Brings (e : PEnv c) (p : Bytes) (pc : Pc) : Prop :=
  (∃ addr n pub, (addr, n) ∈ todo pc ∧ Welcome e addr n pub ∧ Node.shortId c pub = p) ∨
  (∃ n, adding pc = some (p, n)) ∨ ∃ amount left picked, pc = .pick amount left picked ∧ p ∈ picked

theorem brings_none {e : PEnv c} {p : Bytes} {pc : Pc} (h1 : todo pc = []) (h2 : adding pc = none)
    (h3 : ∀ a b d, pc ≠ .pick a b d) : ¬ Brings e p pc := by
  rintro (⟨_, _, _, h, _⟩ | ⟨n, h⟩ | ⟨a, b, d, h, _⟩)
  · rw [h1] at h; cases h
  · rw [h2] at h; cases h
  · exact h3 a b d h

/-- A removed peer, and nobody to bring it back. -/
structure Out (e : PEnv c) (p : Bytes) (s : PState) : Prop where
  sets : SetsInv e s
  ignored : p ∈ s.ignored
  neigh : p ∉ s.neighbours.index

theorem tstep_out {e : PEnv c} {p : Bytes} {s : PState} {ch : List Bytes} {pc : Pc} (h : Out e p s) (hb : ¬ Brings e p pc) :
    Out e p (tstep e s ch pc).1 ∧ ¬ Brings e p (tstep e s ch pc).2.1 := by
  have hs := h.sets
  have hadd : ∀ q n, adding pc = some (q, n) → q ≠ p := fun q n hq heq => hb (.inr (.inl ⟨n, heq ▸ hq⟩))
  have hkeep : ∀ pc' : Pc, todo pc' = todo pc → adding pc' = adding pc → (∀ a b d, pc' ≠ .pick a b d) → ¬ Brings e p pc' := by
    intro pc' h1 h2 h3 hb'
    rcases hb' with hb' | hb' | ⟨a, b, d, hb', _⟩
    · rw [h1] at hb'; exact hb (.inl hb')
    · rw [h2] at hb'; exact hb (.inr (.inl hb'))
    · exact h3 a b d hb'
  cases pc with
  | offer l =>
    cases l with
    | nil => exact ⟨h, brings_none rfl rfl (by simp [tstep])⟩
    | cons x rest =>
      obtain ⟨addr, n⟩ := x
      have hrest : ∀ addr' n' pub', (addr', n') ∈ rest → Welcome e addr' n' pub' → Node.shortId c pub' ≠ p :=
        fun addr' n' pub' h1 h2 h3 => hb (.inl ⟨addr', n', pub', List.mem_cons_of_mem _ h1, h2, h3⟩)
      rcases tstep_offer e s ch addr n rest with ⟨pub, t, hw, heq, -⟩ | ⟨-, t, heq, -⟩
      · rw [heq]
        refine ⟨⟨⟨hs.1, hs.2, hs.3, hs.4, hs.5⟩, h.ignored, h.neigh⟩, ?_⟩
        rintro (⟨a, b, d, h1, h2, h3⟩ | ⟨m, h1⟩ | ⟨a, b, d, h1, _⟩)
        · exact hrest a b d h1 h2 h3
        · simp only [adding, Option.some.injEq, Prod.mk.injEq] at h1
          exact hb (.inl ⟨addr, n, pub, List.mem_cons_self .., hw, h1.1⟩)
        · cases h1
      · rw [heq]
        refine ⟨⟨⟨hs.1, hs.2, hs.3, hs.4, hs.5⟩, h.ignored, h.neigh⟩, ?_⟩
        rintro (⟨a, b, d, h1, h2, h3⟩ | ⟨m, h1⟩ | ⟨a, b, d, h1, _⟩)
        · exact hrest a b d h1 h2 h3
        · cases h1
        · cases h1
  | unignore q n rest =>
    refine ⟨⟨⟨hs.1, hs.2, hs.3, hs.4, hs.5.erase q⟩, ?_, h.neigh⟩, hkeep _ rfl rfl (by simp [tstep])⟩
    exact (List.mem_erase_of_ne (hadd q n rfl).symm).mpr h.ignored
  | know q n rest =>
    have h1 := PeersSet.insert_spec hs.known q
    exact ⟨⟨⟨h1.1, hs.2, h1.2.1.trans hs.3, hs.4, hs.5⟩, h.ignored, h.neigh⟩, hkeep _ rfl rfl (by simp [tstep])⟩
  | room q n rest =>
    refine ⟨h, ?_⟩
    simp only [tstep]
    split
    · exact hkeep _ rfl rfl (by simp)
    · exact hkeep _ rfl rfl (by simp)
  | join q n rest =>
    have h1 := PeersSet.insert_spec hs.neigh q
    refine ⟨⟨⟨hs.1, h1.1, hs.3, h1.2.1.trans hs.4, hs.5⟩, h.ignored, fun hx => ?_⟩, hkeep _ rfl rfl (by simp [tstep])⟩
    rcases mem_insert hs.neigh hx with hx | hx
    · exact h.neigh hx
    · exact hadd q n rfl hx.symm
  | store q n rest =>
    refine ⟨⟨⟨hs.1, hs.2, hs.3, hs.4, hs.5⟩, h.ignored, h.neigh⟩, ?_⟩
    rintro (hb' | ⟨m, h1⟩ | ⟨a, b, d, h1, _⟩)
    · exact hb (.inl hb')
    · cases h1
    · cases h1
  | mark q =>
    simp only [tstep]
    split
    · exact ⟨h, brings_none rfl rfl (by simp)⟩
    · rename_i hi
      exact ⟨⟨⟨hs.1, hs.2, hs.3, hs.4, List.nodup_cons.mpr ⟨hi, hs.5⟩⟩, List.mem_cons_of_mem _ h.ignored, h.neigh⟩,
        brings_none rfl rfl (by simp)⟩
  | seek q =>
    refine ⟨h, ?_⟩
    simp only [tstep]
    split
    · exact brings_none rfl rfl (by simp)
    · exact brings_none rfl rfl (by simp)
  | size amount => exact ⟨h, brings_none rfl rfl (by simp [tstep])⟩
  | draw amount k =>
    refine ⟨h, ?_⟩
    rintro (⟨a, b, d, h1, _⟩ | ⟨m, h1⟩ | ⟨a, b, d, h1, h2⟩)
    · cases h1
    · cases h1
    · simp only [tstep, Pc.pick.injEq] at h1
      rw [← h1.2.2] at h2
      cases h2
  | pick amount left picked =>
    have hp : p ∉ picked := fun hx => hb (.inr (.inr ⟨amount, left, picked, rfl, hx⟩))
    have hext := PeersSet.extend_spec hs.neigh picked
    have hend : Out e p { s with neighbours := PeersSet.extend s.neighbours picked } := by
      refine ⟨⟨hs.1, hext.1, hs.3, hext.2.1.trans hs.4, hs.5⟩, h.ignored, fun hx => ?_⟩
      rcases mem_extend hs.neigh hx with hx | hx
      · exact h.neigh hx
      · exact hp hx
    cases left with
    | nil => exact ⟨hend, brings_none rfl rfl (by simp [tstep])⟩
    | cons y left =>
      simp only [tstep]
      split
      · refine ⟨h, ?_⟩
        rintro (⟨a, b, d, h1, _⟩ | ⟨m, h1⟩ | ⟨a, b, d, h1, h2⟩)
        · cases h1
        · cases h1
        · simp only [Pc.pick.injEq] at h1
          rw [← h1.2.2] at h2
          split at h2
          · exact hp h2
          · rename_i hy
            rcases List.mem_append.mp h2 with h2 | h2
            · exact hp h2
            · rw [List.mem_singleton] at h2
              exact hy (h2 ▸ h.ignored)
      · exact ⟨hend, brings_none rfl rfl (by simp)⟩
  | hear ll now => exact ⟨⟨⟨hs.1, hs.2, hs.3, hs.4, hs.5⟩, h.ignored, h.neigh⟩, brings_none rfl rfl (by simp [tstep])⟩
  | sample now => exact ⟨h, brings_none rfl rfl (by simp [tstep])⟩
  | gather left out =>
    cases left with
    | nil => exact ⟨h, brings_none rfl rfl (by simp [tstep])⟩
    | cons x left => exact ⟨h, brings_none rfl rfl (by simp [tstep])⟩
  | take => exact ⟨⟨⟨hs.1, hs.2, hs.3, hs.4, hs.5⟩, h.ignored, h.neigh⟩, brings_none rfl rfl (by simp [tstep])⟩
  | over => exact ⟨h, hb⟩

theorem wstep_out {e : PEnv c} {p : Bytes} {w : World} (h : Out e p w.peers) (hb : ∀ pc ∈ w.calls, ¬ Brings e p pc) (a : Act)
    (hno : NotOffered e p (offeredBy a)) :
    Out e p (wstep e w a).peers ∧ ∀ pc ∈ (wstep e w a).calls, ¬ Brings e p pc := by
  cases a with
  | begin k =>
    refine ⟨h, fun pc hpc => ?_⟩
    rcases List.mem_append.mp hpc with hpc | hpc
    · exact hb pc hpc
    · rw [List.mem_singleton] at hpc
      subst hpc
      cases k with
      | add ll =>
        rintro (⟨a, b, d, h1, h2, h3⟩ | ⟨m, h1⟩ | ⟨a, b, d, h1, _⟩)
        · exact hno a b d h1 h2 h3
        · cases h1
        · cases h1
      | _ => exact brings_none rfl rfl (by simp [Call.start])
  | step i ch =>
    simp only [wstep]
    cases hi : w.calls[i]? with
    | none => exact ⟨h, hb⟩
    | some pc =>
      have := tstep_out (ch := ch) h (hb pc (List.mem_of_getElem? hi))
      refine ⟨this.1, fun pc' hpc' => ?_⟩
      rcases List.mem_or_eq_of_mem_set hpc' with hpc' | rfl
      · exact hb pc' hpc'
      · exact this.2
  | adnl t => exact ⟨⟨⟨h.1.1, h.1.2, h.1.3, h.1.4, h.1.5⟩, h.2, h.3⟩, hb⟩

/-- C137: a peer that is ignored and no neighbour, and that no unfinished call has a record of or has picked, is not
active, not a neighbour and not picked, whatever the order of the steps, until it is offered again. -/
theorem C137_stays_out_partial (e : PEnv c) (peers ch0 : List Bytes) (as as' : List Act) (h0 : SampledInit e peers ch0)
    (hd : Draws e (World.init e peers ch0) as) (p : Bytes)
    (hi : p ∈ (wrun e (World.init e peers ch0) as).peers.ignored)
    (hn : p ∉ (wrun e (World.init e peers ch0) as).peers.neighbours.index)
    (hb : ∀ pc ∈ (wrun e (World.init e peers ch0) as).calls, ¬ Brings e p pc)
    (hno : NotOffered e p (offeredTo as')) :
    let w := wrun e (wrun e (World.init e peers ch0) as) as'
    isActive w.peers p = false ∧ p ∉ w.peers.neighbours.index ∧ ∀ pc ∈ w.calls, ¬ Brings e p pc := by
  intro w
  have hw := (wrun_inv as [] _ (winv_init e peers ch0 h0) hd).1.sets
  have key : ∀ (as : List Act) (w : World), Out e p w.peers → (∀ pc ∈ w.calls, ¬ Brings e p pc) →
      NotOffered e p (offeredTo as) → Out e p (wrun e w as).peers ∧ ∀ pc ∈ (wrun e w as).calls, ¬ Brings e p pc := by
    intro as
    induction as with
    | nil => intro w h hb _; exact ⟨h, hb⟩
    | cons a as ih =>
      intro w h hb hno
      rw [offeredTo_cons] at hno
      obtain ⟨h1, h2⟩ := wstep_out h hb a (fun x y z hm => hno x y z (List.mem_append_left _ hm))
      exact ih _ h1 h2 (fun x y z hm => hno x y z (List.mem_append_right _ hm))
  obtain ⟨h1, h2⟩ := key as' _ ⟨hw, hi, hn⟩ hb hno
  refine ⟨?_, h1.neigh, h2⟩
  simp [isActive, w, h1.ignored]

/-! ### Answers -/

/-- The node a record names. -/
def namedBy (c : Crypto) (n : ONode) : Option Bytes := (Receiver.fullId c n.id).map (Node.shortId c)

/-- The own record, then records of `found`. -/
structure Answer (e : PEnv c) (l : List (Address.SockAddr × ONode)) (found : List Bytes) (out : List ONode) : Prop where
  shape : ∃ now rest, out = signLocalNode e now :: rest ∧ rest.map (namedBy c) = found.map some ∧
    ∀ n ∈ rest, ∃ addr pub, (addr, n) ∈ l ∧ Welcome e addr n pub

theorem Answer.mono {e : PEnv c} {l l' : List (Address.SockAddr × ONode)} {found : List Bytes} {out : List ONode}
    (h : Answer e l found out) (hl : ∀ y ∈ l, y ∈ l') : Answer e l' found out := by
  obtain ⟨now, rest, h1, h2, h3⟩ := h.shape
  refine ⟨now, rest, h1, h2, fun n hn => ?_⟩
  obtain ⟨addr, pub, h4, h5⟩ := h3 n hn
  exact ⟨addr, pub, hl _ h4, h5⟩

/-- An answer being put together. -/
def GInv (e : PEnv c) (l : List (Address.SockAddr × ONode)) (pc : Pc) : Prop :=
  ∀ left out, pc = .gather left out → ∃ found, Answer e l found out ∧ (found ++ left).Nodup ∧ (found ++ left).length ≤ 4

/-- A complete answer. -/
def Given (e : PEnv c) (l : List (Address.SockAddr × ONode)) (out : List ONode) : Prop :=
  ∃ found, Answer e l found out ∧ found.Nodup ∧ found.length ≤ 4

theorem gInv_none {e : PEnv c} {l : List (Address.SockAddr × ONode)} {pc : Pc} (h : ∀ a b, pc ≠ .gather a b) : GInv e l pc :=
  fun a b hab => absurd hab (h a b)

theorem tstep_answer {e : PEnv c} {peers : List Bytes} {l : List (Address.SockAddr × ONode)} {s : PState} {pc : Pc}
    {ch : List Bytes} (hs : PeersInv e peers l s) (hg : GInv e l pc)
    (hd : ∀ now, pc = .sample now → IsSample ch s.neighbours.index 4) :
    GInv e l (tstep e s ch pc).2.1 ∧ ∀ out, (tstep e s ch pc).2.2 = some out → Given e l out := by
  cases pc with
  | offer ll =>
    cases ll with
    | nil => exact ⟨gInv_none (by simp [tstep]), fun out h => by cases h⟩
    | cons x rest =>
      obtain ⟨addr, n⟩ := x
      rcases tstep_offer e s ch addr n rest with ⟨pub, t, hw, heq, -⟩ | ⟨-, t, heq, -⟩ <;> rw [heq] <;>
        exact ⟨gInv_none (by simp), fun out h => by cases h⟩
  | room p n rest =>
    refine ⟨gInv_none ?_, fun out h => by cases h⟩
    simp only [tstep]; split <;> simp
  | mark p => simp only [tstep]; split <;> exact ⟨gInv_none (by simp), fun out h => by cases h⟩
  | seek p =>
    refine ⟨gInv_none ?_, fun out h => by cases h⟩
    simp only [tstep]; split <;> simp
  | pick a left picked =>
    cases left with
    | nil => exact ⟨gInv_none (by simp [tstep]), fun out h => by cases h⟩
    | cons x left => simp only [tstep]; split <;> exact ⟨gInv_none (by simp), fun out h => by cases h⟩
  | sample now =>
    refine ⟨fun left out heq => ?_, fun out h => by cases h⟩
    simp only [tstep, Pc.gather.injEq] at heq
    obtain ⟨rfl, rfl⟩ := heq
    have hc := hd now rfl
    have hchn : ch.Nodup := hc.nodup hs.sets.neigh.nodup
    have hchl : ch.length ≤ 4 := by have := hc.2; omega
    have hperm := fresh_fill hchn hchl
    refine ⟨[], ⟨now, [], rfl, rfl, fun n hn => by cases hn⟩, ?_, ?_⟩
    · rw [List.nil_append]; exact hperm.nodup_iff.mpr hchn
    · rw [List.nil_append, hperm.length_eq]; exact hchl
  | gather left out =>
    obtain ⟨found, ha, hn, hl⟩ := hg left out rfl
    cases left with
    | nil =>
      refine ⟨gInv_none (by simp [tstep]), fun o h => ?_⟩
      simp only [tstep, Option.some.injEq] at h
      subst h
      rw [List.append_nil] at hn hl
      exact ⟨found, ha, hn, hl⟩
    | cons x left =>
      refine ⟨fun left' out' heq => ?_, fun o h => by cases h⟩
      simp only [tstep, Pc.gather.injEq] at heq
      obtain ⟨rfl, rfl⟩ := heq
      cases hx : s.nodes.get x with
      | none =>
        refine ⟨found, by simpa using ha, ?_, ?_⟩
        · exact hn.sublist (List.Sublist.append_left (List.sublist_cons_self x left) found)
        · simp only [List.length_append, List.length_cons] at hl ⊢; omega
      | some n =>
        obtain ⟨now, rest, h1, h2, h3⟩ := ha.shape
        obtain ⟨addr, pub, g1, g2, g3⟩ := hs.stored x n hx
        refine ⟨found ++ [x], ⟨now, rest ++ [n], by simp [h1], ?_, ?_⟩, by simpa using hn, by simpa using hl⟩
        · rw [List.map_append, List.map_append, h2]
          simp [namedBy, g2.1.2.1, g3]
        · intro m hm
          rcases List.mem_append.mp hm with hm | hm
          · exact h3 m hm
          · rw [List.mem_singleton] at hm
            exact hm ▸ ⟨addr, pub, g1, g2⟩
  | _ => exact ⟨gInv_none (by simp [tstep]), fun out h => by cases h⟩

structure AInv (e : PEnv c) (peers : List Bytes) (l : List (Address.SockAddr × ONode)) (w : World) : Prop where
  base : WInv e peers l w
  calls : ∀ pc ∈ w.calls, GInv e l pc
  answers : ∀ out ∈ w.answers, Given e l out

theorem GInv.mono {e : PEnv c} {l l' : List (Address.SockAddr × ONode)} {pc : Pc} (h : GInv e l pc) (hl : ∀ y ∈ l, y ∈ l') :
    GInv e l' pc := fun left out heq => by
  obtain ⟨found, h1, h2⟩ := h left out heq
  exact ⟨found, h1.mono hl, h2⟩

theorem Given.mono {e : PEnv c} {l l' : List (Address.SockAddr × ONode)} {out : List ONode} (h : Given e l out)
    (hl : ∀ y ∈ l, y ∈ l') : Given e l' out := by
  obtain ⟨found, h1, h2⟩ := h
  exact ⟨found, h1.mono hl, h2⟩

theorem wstep_answer {e : PEnv c} {peers : List Bytes} {l : List (Address.SockAddr × ONode)} {w : World}
    (h : AInv e peers l w) (a : Act) (hd : DrawnAt w a) : AInv e peers (l ++ offeredBy a) (wstep e w a) := by
  have hl : ∀ y ∈ l, y ∈ l ++ offeredBy a := fun y hy => List.mem_append_left _ hy
  refine ⟨wstep_inv h.base a hd, ?_, ?_⟩
  · cases a with
    | begin k =>
      intro pc hpc
      rcases List.mem_append.mp hpc with hpc | hpc
      · exact (h.calls pc hpc).mono hl
      · rw [List.mem_singleton] at hpc
        subst hpc
        cases k <;> exact gInv_none (by simp [Call.start])
    | step i ch =>
      simp only [wstep]
      cases hi : w.calls[i]? with
      | none => exact fun pc hpc => (h.calls pc hpc).mono hl
      | some pc =>
        have := tstep_answer (ch := ch) h.base.state (h.calls pc (List.mem_of_getElem? hi)) (fun now hpc => by
          subst hpc
          simpa only [DrawnAt, hi] using hd)
        intro pc' hpc'
        rcases List.mem_or_eq_of_mem_set hpc' with hpc' | rfl
        · exact (h.calls pc' hpc').mono hl
        · exact this.1.mono hl
    | adnl t => exact fun pc hpc => (h.calls pc hpc).mono hl
  · cases a with
    | begin k => exact fun out ho => (h.answers out ho).mono hl
    | step i ch =>
      simp only [wstep]
      cases hi : w.calls[i]? with
      | none => exact fun out ho => (h.answers out ho).mono hl
      | some pc =>
        have := tstep_answer (ch := ch) h.base.state (h.calls pc (List.mem_of_getElem? hi)) (fun now hpc => by
          subst hpc
          simpa only [DrawnAt, hi] using hd)
        intro out ho
        rcases List.mem_append.mp ho with ho | ho
        · exact (h.answers out ho).mono hl
        · exact (this.2 out (by simpa using ho)).mono hl
    | adnl t => exact fun out ho => (h.answers out ho).mono hl

theorem wrun_answer {e : PEnv c} {peers : List Bytes} (as : List Act) : ∀ (l : List (Address.SockAddr × ONode)) (w : World),
    AInv e peers l w → Draws e w as → AInv e peers (l ++ offeredTo as) (wrun e w as) := by
  induction as with
  | nil => intro l w h _; simpa [offeredTo, wrun] using h
  | cons a as ih =>
    intro l w h hd
    rw [offeredTo_cons, ← List.append_assoc]
    exact ih _ _ (wstep_answer h a hd.1) hd.2

/-- C137: every answer to a request for random peers, put together while other calls change the peers, is the own record
followed by at most four records, of different nodes other than the own, each signed for the overlay by the node it names,
each once offered. -/
theorem C137_answers_partial (hl : c.Lawful) (e : PEnv c) (peers ch0 : List Bytes) (as : List Act) (h0 : SampledInit e peers ch0)
    (hd : Draws e (World.init e peers ch0) as) :
    ∀ answer ∈ (wrun e (World.init e peers ch0) as).answers, ∃ now rest, answer = signLocalNode e now :: rest ∧
      Genuine c e.overlay (signLocalNode e now) (c.pubOf e.key) ∧ rest.length ≤ 4 ∧
      (answer.map fun n => (Receiver.fullId c n.id).map (Node.shortId c)).Nodup ∧
      ∀ n ∈ rest, ∃ addr pub, (addr, n) ∈ offeredTo as ∧ Genuine c e.overlay n pub ∧ Node.shortId c pub ≠ e.localId := by
  intro answer ha
  have h := wrun_answer as [] _ ⟨winv_init e peers ch0 h0, fun _ h => (by cases h), fun _ h => (by cases h)⟩ hd
  rw [List.nil_append] at h
  obtain ⟨found, ⟨now, rest, h1, h2, h3⟩, hn, hlen⟩ := h.answers answer ha
  have hown : Genuine c e.overlay (signLocalNode e now) (c.pubOf e.key) :=
    ⟨rfl, hl.decode_pub _, hl.sign_length _ _, hl.sign_verify _ _⟩
  have hr : rest.length = found.length := by
    have := congrArg List.length h2
    simpa using this
  refine ⟨now, rest, h1, hown, by omega, ?_, fun n hm => ?_⟩
  · rw [h1, List.map_cons, List.nodup_cons]
    constructor
    · intro hmem
      obtain ⟨n, hm, heq⟩ := List.mem_map.mp hmem
      obtain ⟨addr, pub, _, hw⟩ := h3 n hm
      rw [hw.1.2.1, hown.2.1] at heq
      exact hw.2.1 (Option.some.inj heq)
    · have : rest.map (fun n => (Receiver.fullId c n.id).map (Node.shortId c)) = found.map some := h2
      rw [this]
      exact hn.map (fun a b h => Option.some.inj h)
  · obtain ⟨addr, pub, g1, g2⟩ := h3 n hm
    exact ⟨addr, pub, g1, g2.1, g2.2.1⟩

/-! ### A call that is not disturbed -/

/-- The call as one step of `OverlayPeers`. -/
def asOneStep (ch : List Bytes) : Call → PAction
  | .add l => .addMany l
  | .remove p => .remove p ch
  | .refresh => .refresh ch
  | .exchange l now => .exchange l now ch
  | .take => .take

/-- What it answers. -/
def answerOf (e : PEnv c) (s : PState) (ch : List Bytes) : Call → List (List ONode)
  | .exchange l now => [(processGetRandomPeers e s l now ch).2]
  | _ => []

/-- `m` steps of one call. -/
def alone (e : PEnv c) (ch : List Bytes) : Nat → PState → Pc → PState × Pc × List (List ONode)
  | 0, s, pc => (s, pc, [])
  | m + 1, s, pc =>
    let r := tstep e s ch pc
    let q := alone e ch m r.1 r.2.1
    (q.1, q.2.1, r.2.2.toList ++ q.2.2)

def Goes (e : PEnv c) (ch : List Bytes) (s : PState) (pc : Pc) (s' : PState) (pc' : Pc) (out : List (List ONode)) : Prop :=
  ∃ m, alone e ch m s pc = (s', pc', out)

theorem Goes.refl (e : PEnv c) (ch : List Bytes) (s : PState) (pc : Pc) : Goes e ch s pc s pc [] := ⟨0, rfl⟩

theorem Goes.cons {e : PEnv c} {ch : List Bytes} {s s1 s' : PState} {pc pc1 pc' : Pc} {o : Option (List ONode)}
    {out : List (List ONode)} (h : tstep e s ch pc = (s1, pc1, o)) (hg : Goes e ch s1 pc1 s' pc' out) :
    Goes e ch s pc s' pc' (o.toList ++ out) := by
  obtain ⟨m, hm⟩ := hg
  exact ⟨m + 1, by simp only [alone, h, hm]⟩

theorem wrun_alone (e : PEnv c) (ch : List Bytes) (i : Nat) (m : Nat) : ∀ (w : World) (pc : Pc), w.calls[i]? = some pc →
    wrun e w (List.replicate m (.step i ch)) =
      ⟨(alone e ch m w.peers pc).1, w.calls.set i (alone e ch m w.peers pc).2.1,
        w.answers ++ (alone e ch m w.peers pc).2.2⟩ := by
  induction m with
  | zero =>
    intro w pc h
    obtain ⟨hlt, he⟩ := List.getElem?_eq_some_iff.mp h
    simp only [List.replicate_zero, wrun, alone, List.append_nil]
    have : w.calls.set i pc = w.calls := by rw [← he]; exact List.set_getElem_self hlt
    rw [this]
  | succ m ih =>
    intro w pc h
    obtain ⟨hlt, he⟩ := List.getElem?_eq_some_iff.mp h
    rw [List.replicate_succ, wrun]
    simp only [wstep, h]
    rw [ih _ _ (List.getElem?_set_self hlt)]
    simp only [alone, List.set_set, List.append_assoc]

theorem goes_offer (e : PEnv c) (ch : List Bytes) (l : List (Address.SockAddr × ONode)) : ∀ s : PState,
    Goes e ch s (.offer l) (addPublicPeers e s l).1 .over [] := by
  induction l with
  | nil => intro s; exact Goes.cons (s1 := s) (o := none) rfl (Goes.refl ..)
  | cons x rest ih =>
    intro s
    obtain ⟨addr, n⟩ := x
    have hrec : ∀ (s1 : PState) (r : Option Bytes), addPublicPeer e s addr n = (s1, .ok r) →
        (addPublicPeers e s ((addr, n) :: rest)).1 = (addPublicPeers e s1 rest).1 := by
      intro s1 r h
      simp only [addPublicPeers, h]
      cases hr : addPublicPeers e s1 rest with
      | mk a b => cases b <;> rfl
    rcases tstep_offer e s ch addr n rest with ⟨pub, t, hw, heq, hadd⟩ | ⟨-, t, heq, hadd⟩
    · rw [hrec _ _ hadd]
      have hi := ih (insertPublicPeer { s with adnl := t } (Node.shortId c pub) n)
      refine Goes.cons heq (Goes.cons (o := none) rfl (Goes.cons (o := none) rfl ?_))
      simp only [insertPublicPeer] at hi ⊢
      by_cases hf : PeersSet.isFull s.neighbours = true
      · rw [if_pos hf] at hi ⊢
        refine Goes.cons (o := none) (by simp only [tstep, hf, if_true]; rfl) (Goes.cons (o := none) rfl hi)
      · rw [if_neg hf] at hi ⊢
        refine Goes.cons (o := none) (by simp only [tstep, hf]; rfl) (Goes.cons (o := none) rfl (Goes.cons (o := none) rfl hi))
    · rw [hrec _ _ hadd]
      exact Goes.cons heq (ih _)

theorem goes_pick (e : PEnv c) (ch : List Bytes) (amount : Nat) (s : PState) (left : List Bytes) : ∀ picked : List Bytes,
    picked.length ≤ amount →
    Goes e ch s (.pick amount left picked)
      { s with neighbours := PeersSet.extend s.neighbours (picked ++ (left.filter (fun x => x ∉ s.ignored)).take (amount - picked.length)) }
      .over [] := by
  induction left with
  | nil =>
    intro picked _
    simp only [List.filter_nil, List.take_nil, List.append_nil]
    exact Goes.cons (o := none) rfl (Goes.refl ..)
  | cons x left ih =>
    intro picked hle
    by_cases hlt : picked.length < amount
    · by_cases hx : x ∈ s.ignored
      · refine Goes.cons (o := none) (by simp only [tstep, hlt, if_true, hx]; rfl) ?_
        have := ih picked hle
        rw [List.filter_cons, if_neg (by simp [hx])]
        exact this
      · refine Goes.cons (o := none) (by simp only [tstep, hlt, if_true, hx, if_false]; rfl) ?_
        have := ih (picked ++ [x]) (by simp; omega)
        rw [List.filter_cons, if_pos (by simp [hx])]
        have e1 : amount - picked.length = (amount - (picked ++ [x]).length) + 1 := by simp; omega
        rw [e1, List.take_succ_cons]
        simpa using this
    · have e1 : amount - picked.length = 0 := by omega
      rw [e1, List.take_zero, List.append_nil]
      exact Goes.cons (o := none) (by simp only [tstep, hlt, if_false]) (Goes.refl ..)

theorem goes_fill (e : PEnv c) (ch : List Bytes) (amount : Nat) (s : PState) :
    Goes e ch s (.size amount) (updateNeighbours s ch amount) .over [] := by
  refine Goes.cons (o := none) rfl (Goes.cons (o := none) rfl ?_)
  have := goes_pick e ch amount s ch [] (Nat.zero_le _)
  simpa [updateNeighbours, PeersSet.randomlyFillFrom, PeersSet.fillOffered] using this

theorem goes_gather (e : PEnv c) (ch : List Bytes) (s : PState) (left : List Bytes) : ∀ out : List ONode,
    Goes e ch s (.gather left out) s .over [out ++ left.filterMap s.nodes.get] := by
  induction left with
  | nil =>
    intro out
    have := Goes.cons (e := e) (ch := ch) (s := s) (pc := .gather [] out) (o := some out) rfl (Goes.refl e ch s .over)
    simpa using this
  | cons x left ih =>
    intro out
    have := Goes.cons (e := e) (ch := ch) (s := s) (pc := .gather (x :: left) out) (o := none) rfl
      (ih (out ++ (s.nodes.get x).toList))
    have e1 : (x :: left).filterMap s.nodes.get = (s.nodes.get x).toList ++ left.filterMap s.nodes.get := by
      cases hx : s.nodes.get x <;> simp [hx]
    rw [e1, ← List.append_assoc]
    exact this

/-- C137: a call that is not disturbed does to the peers, and answers, exactly what it does when taken as one step, as
in `OverlayPeers`. -/
theorem C137_alone (e : PEnv c) (w : World) (i : Nat) (k : Call) (ch : List Bytes) (hi : w.calls[i]? = some (k.start e)) :
    ∃ m, wrun e w (List.replicate m (.step i ch)) =
      ⟨pstep e w.peers (asOneStep ch k), w.calls.set i .over, w.answers ++ answerOf e w.peers ch k⟩ := by
  suffices h : Goes e ch w.peers (k.start e) (pstep e w.peers (asOneStep ch k)) .over (answerOf e w.peers ch k) by
    obtain ⟨m, hm⟩ := h
    exact ⟨m, by rw [wrun_alone e ch i m w _ hi, hm]⟩
  generalize w.peers = s
  cases k with
  | add l => exact goes_offer e ch l s
  | remove p =>
    simp only [Call.start, asOneStep, pstep, removePublicPeer, answerOf]
    by_cases hp : p ∈ s.ignored
    · rw [if_pos hp]
      exact Goes.cons (o := none) (by simp only [tstep, hp, if_true]) (Goes.refl ..)
    · rw [if_neg hp]
      refine Goes.cons (o := none) (by simp only [tstep, hp, if_false]; rfl) ?_
      by_cases hc : PeersSet.contains s.neighbours p = true
      · rw [if_pos hc]
        exact Goes.cons (o := none) (by simp only [tstep, hc, if_true]) (goes_fill e ch e.maxNeighbours _)
      · rw [if_neg hc]
        exact Goes.cons (o := none) (by simp only [tstep, hc]; rfl) (Goes.refl ..)
  | refresh => exact goes_fill e ch 1 s
  | exchange l now =>
    refine Goes.cons (o := none) rfl (Goes.cons (o := none) rfl ?_)
    have := goes_gather e ch { s with received := (filterNodes e l).foldl (fun m n => storeNewer m n.id n) s.received }
      (PeersSet.randomlyFillFrom (PeersSet.withCapacity 4) false ch 4 none).index [signLocalNode e now]
    exact this
  | take => exact Goes.cons (o := none) rfl (Goes.refl ..)

/-! ### One after another -/

/-- The calls begun, in this order. -/
def begun : List Act → List Call
  | [] => []
  | .begin k :: as => k :: begun as
  | _ :: as => begun as

/-- Call `i` had returned when call `j` began. -/
def Before (e : PEnv c) (w : World) (as : List Act) (i j : Nat) : Prop :=
  ∃ as1 k as2, as = as1 ++ .begin k :: as2 ∧ (begun as1).length = j ∧ (wrun e w as1).calls[i]? = some .over

/-- C137 in full: when all calls have returned, the peers are as if the calls had been made one after another, in some order
that puts a call after those that had returned when it began. -/
def C137_full : Prop :=
  ∀ (c : Crypto), c.Lawful → ∀ (e : PEnv c) (peers ch0 : List Bytes) (as : List Act), SampledInit e peers ch0 →
    Draws e (World.init e peers ch0) as → (∀ t, Act.adnl t ∉ as) → Quiet (wrun e (World.init e peers ch0) as) →
    ∃ (order : List Nat) (actions : List PAction), order.Perm (List.range (begun as).length) ∧
      (∀ i j, Before e (World.init e peers ch0) as i j → order.idxOf i < order.idxOf j) ∧
      List.Forall₂ (fun i a => ∃ k ch, (begun as)[i]? = some k ∧ a = asOneStep ch k) order actions ∧
      Sampled e (PState.init e peers ch0) actions ∧
      let s := (wrun e (World.init e peers ch0) as).peers
      let s' := prun e (PState.init e peers ch0) actions
      ∀ x, (x ∈ s.ignored ↔ x ∈ s'.ignored) ∧ (x ∈ s.known.index ↔ x ∈ s'.known.index) ∧
        (x ∈ s.neighbours.index ↔ x ∈ s'.neighbours.index)

/-- An overlay with room for one neighbour. -/
def narrow : PEnv Crypto.toy := { sampleOverlay with maxNeighbours := 1 }

/-- Node 9 is being added and has been found to have room; node 8 is added; node 9 is removed; the first call goes on. -/
def overtaken : List Act :=
  [.begin (.add [(sampleAddr, recordOf 9 4)]), .step 0 [], .step 0 [], .step 0 [], .step 0 [],
   .begin (.add [(sampleAddr, recordOf 8 4)]), .step 1 [], .step 1 [], .step 1 [], .step 1 [], .step 1 [], .step 1 [], .step 1 [],
   .begin (.remove (idOf 9)), .step 2 [], .step 2 [],
   .step 0 [], .step 0 [], .step 0 []]

def overtakenWorld : World := wrun narrow (World.init narrow [] []) overtaken

theorem overtaken_calls : overtakenWorld.calls = [.over, .over, .over] := by decide +kernel
theorem overtaken_sets : overtakenWorld.peers.ignored = [idOf 9] ∧ overtakenWorld.peers.neighbours.index = [idOf 9] ∧
    overtakenWorld.peers.known.index = [idOf 9, idOf 8] := by decide +kernel

/-- No step of the run draws. -/
def noDraw (e : PEnv c) : World → List Act → Bool
  | _, [] => true
  | w, a :: as =>
    (match a with
      | .step i _ => match w.calls[i]? with
        | some (.draw ..) | some (.sample _) => false
        | _ => true
      | _ => true) && noDraw e (wstep e w a) as

theorem draws_of_noDraw {e : PEnv c} : ∀ (as : List Act) (w : World), noDraw e w as = true → Draws e w as := by
  intro as
  induction as with
  | nil => intro w _; trivial
  | cons a as ih =>
    intro w h
    simp only [noDraw, Bool.and_eq_true] at h
    refine ⟨?_, ih _ h.2⟩
    cases a with
    | begin k => trivial
    | adnl t => trivial
    | step i ch =>
      simp only [DrawnAt]
      have h1 := h.1
      split
      · rename_i hpc
        simp [hpc] at h1
      · rename_i hpc
        simp [hpc] at h1
      · trivial

theorem overtaken_draws : Draws narrow (World.init narrow [] []) overtaken := draws_of_noDraw _ _ (by decide +kernel)

/-- C137 is false: node 9 is ignored and yet the only neighbour, though node 8, added before node 9 was removed, could have
taken its place. -/
theorem C137_full_false : ¬ C137_full := by
  intro h
  obtain ⟨order, actions, hperm, hord, hall, hsam, hs⟩ := h Crypto.toy Crypto.toy_lawful narrow [] [] overtaken
    (fun h => absurd rfl h) overtaken_draws (by simp [overtaken]) (by
      intro pc hpc
      have : pc ∈ overtakenWorld.calls := hpc
      rw [overtaken_calls] at this
      simpa using this)
  have h12 : order.idxOf 1 < order.idxOf 2 := hord 1 2 ⟨overtaken.take 13, .remove (idOf 9), overtaken.drop 14, rfl, rfl,
    by decide +kernel⟩
  have hb : begun overtaken = [.add [(sampleAddr, recordOf 9 4)], .add [(sampleAddr, recordOf 8 4)], .remove (idOf 9)] := rfl
  have h9 := hs (idOf 9)
  have e1 := overtaken_sets
  unfold overtakenWorld at e1
  simp only [e1.1, e1.2.1, e1.2.2] at h9
  have hig : idOf 9 ∈ (prun narrow (PState.init narrow [] []) actions).ignored := h9.1.mp (List.mem_singleton.mpr rfl)
  have hne : idOf 9 ∈ (prun narrow (PState.init narrow [] []) actions).neighbours.index := h9.2.2.mp (List.mem_singleton.mpr rfl)
  have hcases : order = [0, 1, 2] ∨ order = [1, 0, 2] ∨ order = [1, 2, 0] := by
    have hlen : order.length = 3 := by rw [hperm.length_eq, hb]; rfl
    have hnd : order.Nodup := hperm.nodup_iff.mpr List.nodup_range
    have hlt : ∀ x ∈ order, x = 0 ∨ x = 1 ∨ x = 2 := fun x hx => by
      have := List.mem_range.mp (hperm.mem_iff.mp hx)
      rw [hb] at this
      simp only [List.length_cons, List.length_nil] at this
      omega
    obtain ⟨x, y, z, rfl⟩ := List.length_eq_three.mp hlen
    have hx := hlt x (by simp)
    have hy := hlt y (by simp)
    have hz := hlt z (by simp)
    clear hlt hperm hord hall hs h h9 hlen
    rcases hx with rfl | rfl | rfl <;> rcases hy with rfl | rfl | rfl <;> rcases hz with rfl | rfl | rfl <;>
      first
      | exact absurd hnd (by decide)
      | exact absurd h12 (by decide)
      | simp
  rw [hb] at hall
  have inv : ∀ {i j k : Nat}, order = [i, j, k] → ∃ a b d, actions = [a, b, d] ∧
      (∃ q ch, (begun overtaken)[i]? = some q ∧ a = asOneStep ch q) ∧
      (∃ q ch, (begun overtaken)[j]? = some q ∧ b = asOneStep ch q) ∧
      (∃ q ch, (begun overtaken)[k]? = some q ∧ d = asOneStep ch q) := by
    rintro i j k rfl
    rw [hb]
    cases hall with
    | cons h1 hall =>
      cases hall with
      | cons h2 hall =>
        cases hall with
        | cons h3 hall =>
          cases hall
          exact ⟨_, _, _, rfl, h1, h2, h3⟩
  have act0 : ∀ {a : PAction}, (∃ q ch, (begun overtaken)[0]? = some q ∧ a = asOneStep ch q) →
      a = .addMany [(sampleAddr, recordOf 9 4)] := by
    rintro a ⟨q, ch, h1, rfl⟩; cases h1; rfl
  have act1 : ∀ {a : PAction}, (∃ q ch, (begun overtaken)[1]? = some q ∧ a = asOneStep ch q) →
      a = .addMany [(sampleAddr, recordOf 8 4)] := by
    rintro a ⟨q, ch, h1, rfl⟩; cases h1; rfl
  have act2 : ∀ {a : PAction}, (∃ q ch, (begun overtaken)[2]? = some q ∧ a = asOneStep ch q) →
      ∃ ch, a = .remove (idOf 9) ch := by
    rintro a ⟨q, ch, h1, rfl⟩; cases h1; exact ⟨ch, rfl⟩
  rcases hcases with ho | ho | ho
  · obtain ⟨a, b, d, rfl, h1, h2, h3⟩ := inv ho
    obtain rfl := act0 h1
    obtain rfl := act1 h2
    obtain ⟨ch, rfl⟩ := act2 h3
    -- the removal draws both peers
    have hdr := hsam.2.2.1 (by decide +kernel) (by decide +kernel)
    have hk : (pstep narrow (pstep narrow (PState.init narrow [] []) (.addMany [(sampleAddr, recordOf 9 4)]))
        (.addMany [(sampleAddr, recordOf 8 4)])).known.index = [idOf 9, idOf 8] := by decide +kernel
    have hl : narrow.maxNeighbours + ((pstep narrow (pstep narrow (PState.init narrow [] [])
        (.addMany [(sampleAddr, recordOf 9 4)])) (.addMany [(sampleAddr, recordOf 8 4)])).ignored.length + 1) = 2 := by
      decide +kernel
    rw [hk, hl] at hdr
    have hp : ch.Perm [idOf 9, idOf 8] := hdr.1.perm_of_length_le (by rw [hdr.2]; simp)
    have hch : ch = [idOf 9, idOf 8] ∨ ch = [idOf 8, idOf 9] := by
      obtain ⟨x, y, rfl⟩ := List.length_eq_two.mp (by rw [hp.length_eq]; rfl : ch.length = 2)
      have hx := hp.mem_iff.mp (List.mem_cons_self (a := x) (l := [y]))
      have hy := hp.mem_iff.mp (List.mem_cons_of_mem x (List.mem_singleton.mpr (rfl : y = y)))
      have hnd : [x, y].Nodup := hp.nodup_iff.mpr (by decide +kernel)
      have hxy : x ≠ y := by simpa using hnd
      simp only [List.mem_cons, List.not_mem_nil, or_false] at hx hy
      rcases hx with rfl | rfl <;> rcases hy with rfl | rfl
      · exact absurd rfl hxy
      · exact .inl rfl
      · exact .inr rfl
      · exact absurd rfl hxy
    rcases hch with rfl | rfl
    · exact absurd hne (by decide +kernel)
    · exact absurd hne (by decide +kernel)
  · obtain ⟨a, b, d, rfl, h1, h2, h3⟩ := inv ho
    obtain rfl := act1 h1
    obtain rfl := act0 h2
    obtain ⟨ch, rfl⟩ := act2 h3
    simp only [prun, pstep] at hne
    rw [removePublicPeer_eq, if_neg (by decide +kernel), if_neg (by decide +kernel)] at hne
    exact absurd hne (by decide +kernel)
  · obtain ⟨a, b, d, rfl, h1, h2, h3⟩ := inv ho
    obtain rfl := act1 h1
    obtain rfl := act0 h3
    obtain ⟨ch, rfl⟩ := act2 h2
    simp only [prun, pstep] at hig
    rw [removePublicPeer_eq, if_neg (by decide +kernel), if_neg (by decide +kernel)] at hig
    exact absurd hig (by decide +kernel)

/-! ### Concrete runs -/

/-- C137: the overtaken addition. -/
example : Member narrow [] (offeredTo overtaken) (idOf 9) ∧ overtakenWorld.peers.neighbours.index.length ≤ 1 :=
  have h := C137_members_partial narrow [] [] overtaken (fun h => absurd rfl h) overtaken_draws
  ⟨h.1 (idOf 9) (.inr (by decide +kernel)), h.2.2.2.2.1⟩

/-- Two calls add records of node 9 at once, and the older one is stored last. -/
def twoVersions : List Act :=
  [.begin (.add [(sampleAddr, recordOf 9 4)]), .begin (.add [(sampleAddr, recordOf 9 8)]),
   .step 0 [], .step 1 [], .step 0 [], .step 1 [], .step 0 [], .step 1 [], .step 0 [], .step 1 [], .step 0 [], .step 1 [],
   .step 1 [], .step 1 [], .step 0 [], .step 0 []]

/-- C137: the newer record is kept. -/
example : ∃ n, (wrun sampleOverlay (World.init sampleOverlay [] []) twoVersions).peers.nodes.get (idOf 9) = some n ∧
    (recordOf 9 8).version ≤ n.version ∧ ∃ addr, (addr, n) ∈ offeredTo twoVersions :=
  (C137_newest_partial sampleOverlay [] [] twoVersions (fun h => absurd rfl h) (draws_of_noDraw _ _ (by decide +kernel))).2
    (by
      have : (wrun sampleOverlay (World.init sampleOverlay [] []) twoVersions).calls = [.over, .over] := by decide +kernel
      intro pc hpc
      rw [this] at hpc
      simpa using hpc)
    sampleAddr (recordOf 9 8) (9 : UInt8) (by simp [twoVersions, offeredTo])
    ⟨sample_genuine 9 8, by decide, by decide, fun f h => by cases h⟩

example : (wrun sampleOverlay (World.init sampleOverlay [] []) twoVersions).peers.nodes = [(idOf 9, recordOf 9 8)] := by
  decide +kernel

/-- C137: node 9 is removed before it was ever there; node 8 is added meanwhile and afterwards. -/
example : isActive (wrun sampleOverlay (wrun sampleOverlay (World.init sampleOverlay [] [])
    [.begin (.add [(sampleAddr, recordOf 8 4)]), .step 0 [], .begin (.remove (idOf 9)), .step 1 [], .step 0 [], .step 1 []])
    [.step 0 [], .begin .refresh, .step 0 [], .step 2 [], .step 0 [], .step 2 [idOf 8]]).peers (idOf 9) = false :=
  (C137_stays_out_partial sampleOverlay [] [] _ _ (fun h => absurd rfl h) (draws_of_noDraw _ _ (by decide +kernel)) (idOf 9)
    (by decide +kernel) (by decide +kernel)
    (by
      have : (wrun sampleOverlay (World.init sampleOverlay [] []) [.begin (.add [(sampleAddr, recordOf 8 4)]), .step 0 [],
        .begin (.remove (idOf 9)), .step 1 [], .step 0 [], .step 1 []]).calls = [.know (idOf 8) (recordOf 8 4) [], .over] := by
        decide +kernel
      intro pc hpc
      rw [this] at hpc
      simp only [List.mem_cons, List.not_mem_nil, or_false] at hpc
      rcases hpc with rfl | rfl
      · rintro (⟨_, _, _, h, _⟩ | ⟨n, h⟩ | ⟨_, _, _, h, _⟩)
        · cases h
        · simp only [adding, Option.some.injEq, Prod.mk.injEq] at h
          exact absurd h.1 (by decide +kernel)
        · cases h
      · exact brings_none rfl rfl (by simp))
    (fun _ _ _ hm => by cases hm)).1

/-- A request for random peers draws node 9, whose record is replaced before it is looked up. -/
def replacedMeanwhile : List Act :=
  [.begin (.add [(sampleAddr, recordOf 9 4)]), .step 0 [], .step 0 [], .step 0 [], .step 0 [], .step 0 [], .step 0 [], .step 0 [],
   .begin (.exchange [] 3), .step 1 [], .step 1 [idOf 9],
   .begin (.add [(sampleAddr, recordOf 9 8)]), .step 2 [], .step 2 [], .step 2 [], .step 2 [], .step 2 [], .step 2 [],
   .step 1 [], .step 1 []]

theorem replaced_draws : Draws sampleOverlay (World.init sampleOverlay [] []) replacedMeanwhile := by
  have h1 : Draws sampleOverlay (World.init sampleOverlay [] []) (replacedMeanwhile.take 10) := draws_of_noDraw _ _ (by decide +kernel)
  have h2 : Draws sampleOverlay (wrun sampleOverlay (World.init sampleOverlay [] []) (replacedMeanwhile.take 11))
    (replacedMeanwhile.drop 11) := draws_of_noDraw _ _ (by decide +kernel)
  have hn : (wrun sampleOverlay (World.init sampleOverlay [] []) (replacedMeanwhile.take 10)).peers.neighbours.index = [idOf 9] := by
    decide +kernel
  have hc : (wrun sampleOverlay (World.init sampleOverlay [] []) (replacedMeanwhile.take 10)).calls[1]? = some (.sample 3) := by
    decide +kernel
  have app : ∀ (as bs : List Act) (w : World), Draws sampleOverlay w as → Draws sampleOverlay (wrun sampleOverlay w as) bs →
      Draws sampleOverlay w (as ++ bs) := by
    intro as
    induction as with
    | nil => intro bs w _ h; exact h
    | cons a as ih => intro bs w h h'; exact ⟨h.1, ih bs _ h.2 h'⟩
  refine app (replacedMeanwhile.take 10) (replacedMeanwhile.drop 10) _ h1 ⟨?_, h2⟩
  simp only [DrawnAt, hc, hn]
  exact ⟨List.Subperm.refl _, rfl⟩

/-- C137: the answer has the newer record. -/
example := C137_answers_partial Crypto.toy_lawful sampleOverlay [] [] replacedMeanwhile (fun h => absurd rfl h) replaced_draws
  [recordOf 1 3, recordOf 9 8] (by decide +kernel)

/-- C137: a removal that is not disturbed. -/
example : ∃ m, (wrun narrow overtakenWorld (.begin (.remove (idOf 8)) :: List.replicate m (.step 3 []))).peers.ignored =
    [idOf 8, idOf 9] := by
  obtain ⟨m, hm⟩ := C137_alone narrow (wstep narrow overtakenWorld (.begin (.remove (idOf 8)))) 3 (.remove (idOf 8)) []
    (by decide +kernel)
  exact ⟨m, by rw [wrun, hm]; decide +kernel⟩

end Verif.Overlay.PeersConc
