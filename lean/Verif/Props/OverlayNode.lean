import Verif.Model.OverlayNode
import Verif.Proofs.OverlayProto
import Verif.Proofs.AMap

/-!
# C52: overlay traffic is routed by overlay id
-/
namespace Verif.Props
open Verif.Overlay Verif.Tl Verif.DhtProto Verif.Dispatch

variable {O : Type}

/-- C52: a message of another kind is left to the other subscribers, and nothing happens. -/
theorem C52_other_messages (h : Handlers O) (s : NState O) (k : Nat) (data : Bytes) (hk : k ≠ 0x75252420) :
    consumeCustom h s k data = (s, some false) := by
  have : k ≠ messageId := hk
  simp [consumeCustom, this]

/-- C52: a query of another kind is handed back untouched, and nothing happens. -/
theorem C52_other_queries (h : Handlers O) (s : NState O) (k : Nat) (query : Bytes) (hk : k ≠ 0xccfd8443) :
    consumeQuery h s k query = (s, .rejected query) := by
  have : k ≠ queryId := hk
  simp [consumeQuery, this]

theorem readMessage_wire (id : Bytes) (b : Broadcast) (rest : Bytes) (hid : id.length = 32) (hb : b.wf) :
    readMessage (writeU32 messageId ++ (id ++ (writeBroadcast b ++ rest))) = some (id, b) := by
  have hd : (writeU32 messageId ++ (id ++ (writeBroadcast b ++ rest))).drop 4 =
      id ++ (writeBroadcast b ++ rest) := by
    have : (writeU32 messageId).length = 4 := rfl
    rw [← this, List.drop_left]
  unfold readMessage
  rw [hd, Encodes.hash hid _]
  simp only []
  rw [broadcast_encodes b hb rest]

/-- C52: what happens to every well-formed message with a broadcast for overlay `id`: without such an
overlay it is an error; a broadcast in one piece or in parts is given to that overlay, the only one
touched; other kinds are an error. -/
theorem C52_broadcast (h : Handlers O) (s : NState O) (id : Bytes) (hid : id.length = 32) (b : Broadcast)
    (hb : b.wf) (rest : Bytes) :
    let data := writeU32 0x75252420 ++ (id ++ (writeBroadcast b ++ rest))
    let s' := (consumeCustom h s 0x75252420 data).1
    let r := (consumeCustom h s 0x75252420 data).2
    (s.overlays.get id = none → s' = s ∧ r = none) ∧
    (∀ o, s.overlays.get id = some o →
      (∀ x, b = .ordinary x → s'.overlays.get id = some (h.ordinary o x data).1 ∧
        r = if (h.ordinary o x data).2 then some true else none) ∧
      (∀ x, b = .fec x → s'.overlays.get id = some (h.fec o x data).1 ∧
        r = if (h.fec o x data).2 then some true else none) ∧
      ((∀ x, b ≠ .ordinary x) → (∀ x, b ≠ .fec x) → s'.overlays.get id = some o ∧ r = none)) ∧
    (∀ id', id' ≠ id → s'.overlays.get id' = s.overlays.get id') ∧
    s'.subscribers = s.subscribers := by
  intro data s' r
  have hread : readMessage data = some (id, b) := readMessage_wire id b rest hid hb
  have hk : ¬ (0x75252420 ≠ messageId) := fun h => h rfl
  have hc : consumeCustom h s 0x75252420 data =
      match s.overlays.get id with
      | none => (s, none)
      | some o => ({ s with overlays := s.overlays.put id (deliver h o b data).1 },
          if (deliver h o b data).2 then some true else none) := by
    unfold consumeCustom
    rw [if_neg hk, hread]
    simp only []
    cases s.overlays.get id <;> rfl
  cases ho : s.overlays.get id with
  | none =>
    rw [ho] at hc
    have hs' : s' = s := congrArg Prod.fst hc
    have hr : r = none := congrArg Prod.snd hc
    exact ⟨fun _ => ⟨hs', hr⟩, fun o h => (by cases h), fun id' _ => (by rw [hs']), by rw [hs']⟩
  | some o =>
    rw [ho] at hc
    have hs' : s' = { s with overlays := s.overlays.put id (deliver h o b data).1 } := congrArg Prod.fst hc
    have hr : r = if (deliver h o b data).2 then some true else none := congrArg Prod.snd hc
    rw [hs', hr]
    refine ⟨fun h => (by cases h), ?_, fun id' hne => AMap.get_put_ne _ _ hne, rfl⟩
    intro o' ho'
    cases ho'
    refine ⟨?_, ?_, ?_⟩
    · rintro x rfl
      exact ⟨AMap.get_put_self _ _ _, rfl⟩
    · rintro x rfl
      exact ⟨AMap.get_put_self _ _ _, rfl⟩
    · intro h1 h2
      have : deliver h o b data = (o, false) := by
        cases b with
        | ordinary x => exact absurd rfl (h1 x)
        | fec x => exact absurd rfl (h2 x)
        | _ => rfl
      rw [this]
      exact ⟨AMap.get_put_self _ _ _, rfl⟩

/-- C52: whatever the message, only the overlay whose id is in its bytes 4 to 35 can change, and a
message that names no existing overlay is an error. -/
theorem C52_message_confined (h : Handlers O) (s : NState O) (data : Bytes) :
    let s' := (consumeCustom h s 0x75252420 data).1
    (∀ id, id ≠ (data.drop 4).take 32 → s'.overlays.get id = s.overlays.get id) ∧
    (s.overlays.get ((data.drop 4).take 32) = none → consumeCustom h s 0x75252420 data = (s, none)) ∧
    s'.subscribers = s.subscribers := by
  intro s'
  have hk : ¬ (0x75252420 ≠ messageId) := fun h => h rfl
  cases hm : readMessage data with
  | none =>
    have hc : consumeCustom h s 0x75252420 data = (s, none) := by
      unfold consumeCustom
      rw [if_neg hk, hm]
    have hs' : s' = s := congrArg Prod.fst hc
    rw [hs']
    exact ⟨fun _ _ => rfl, fun _ => hc, rfl⟩
  | some r =>
    obtain ⟨id, b⟩ := r
    have hid : id = (data.drop 4).take 32 := by
      unfold readMessage at hm
      cases hr : readHash (data.drop 4) with
      | none => rw [hr] at hm; cases hm
      | some x =>
        obtain ⟨i, rest⟩ := x
        rw [hr] at hm
        simp only [] at hm
        cases hb : readBroadcast rest with
        | none => rw [hb] at hm; cases hm
        | some y =>
          rw [hb] at hm
          simp only [Option.some.injEq, Prod.mk.injEq] at hm
          have := readRaw_some hr
          rw [← hm.1, this.2.1]
    cases ho : s.overlays.get id with
    | none =>
      have hc : consumeCustom h s 0x75252420 data = (s, none) := by
        unfold consumeCustom
        rw [if_neg hk, hm]
        simp only [ho]
      have hs' : s' = s := congrArg Prod.fst hc
      rw [hs']
      exact ⟨fun _ _ => rfl, fun _ => hc, rfl⟩
    | some o =>
      have hs' : s' = { s with overlays := s.overlays.put id (deliver h o b data).1 } := by
        show (consumeCustom h s 0x75252420 data).1 = _
        unfold consumeCustom
        rw [if_neg hk, hm]
        simp only [ho]
      rw [hs', ← hid]
      exact ⟨fun id' hne => AMap.get_put_ne _ _ hne, fun h => (by rw [ho] at h; cases h), rfl⟩

theorem readQuery_wire (id : Bytes) (k : Nat) (hk : k < 2 ^ 32) (rest : Bytes) (hid : id.length = 32) :
    readQuery (writeU32 queryId ++ (id ++ (writeU32 k ++ rest))) = some (id, k, writeU32 k ++ rest) := by
  have hd : (writeU32 queryId ++ (id ++ (writeU32 k ++ rest))).drop 4 = id ++ (writeU32 k ++ rest) := by
    have : (writeU32 queryId).length = 4 := rfl
    rw [← this, List.drop_left]
  unfold readQuery
  rw [hd, Encodes.hash hid _]
  simp only []
  rw [Encodes.u32 hk rest]

/-- C52: a random-peers query is answered by the overlay it names, with what that overlay returns, and is
an error if there is none. -/
theorem C52_random_peers (h : Handlers O) (s : NState O) (id : Bytes) (hid : id.length = 32)
    (peers : List ONode) (hl : peers.length < 2 ^ 32) (hp : ∀ n ∈ peers, n.wf) (rest : Bytes) :
    let query := writeU32 0xccfd8443 ++ (id ++ (writeGetRandomPeers peers ++ rest))
    let s' := (consumeQuery h s 0xccfd8443 query).1
    let r := (consumeQuery h s 0xccfd8443 query).2
    (s.overlays.get id = none → s' = s ∧ r = .error) ∧
    (∀ o, s.overlays.get id = some o → s'.overlays.get id = some (h.randomPeers o peers).1 ∧
      r = .consumed (some (writeONodes (h.randomPeers o peers).2))) ∧
    (∀ id', id' ≠ id → s'.overlays.get id' = s.overlays.get id') ∧
    s'.subscribers = s.subscribers := by
  intro query s' r
  have hk : ¬ (0xccfd8443 ≠ queryId) := fun h => h rfl
  have hq : readQuery query = some (id, getRandomPeersId, writeGetRandomPeers peers ++ rest) := by
    have := readQuery_wire id getRandomPeersId (by decide) (writeVec writeONode peers ++ rest) hid
    have he : writeGetRandomPeers peers ++ rest =
        writeU32 getRandomPeersId ++ (writeVec writeONode peers ++ rest) := by
      simp [writeGetRandomPeers]
    show readQuery (writeU32 queryId ++ (id ++ (writeGetRandomPeers peers ++ rest))) = _
    rw [he]
    exact this
  have hg : readGetRandomPeers (writeGetRandomPeers peers ++ rest) = some (peers, rest) :=
    getRandomPeers_encodes peers hl hp rest
  have hc : consumeQuery h s 0xccfd8443 query =
      match s.overlays.get id with
      | none => (s, .error)
      | some o => ({ s with overlays := s.overlays.put id (h.randomPeers o peers).1 },
          .consumed (some (writeONodes (h.randomPeers o peers).2))) := by
    unfold consumeQuery
    rw [if_neg hk, hq]
    simp only [if_true, hg]
    cases s.overlays.get id <;> rfl
  cases ho : s.overlays.get id with
  | none =>
    rw [ho] at hc
    have hs' : s' = s := congrArg Prod.fst hc
    have hr : r = .error := congrArg Prod.snd hc
    exact ⟨fun _ => ⟨hs', hr⟩, fun o h => (by cases h), fun id' _ => (by rw [hs']), by rw [hs']⟩
  | some o =>
    rw [ho] at hc
    have hs' : s' = { s with overlays := s.overlays.put id (h.randomPeers o peers).1 } := congrArg Prod.fst hc
    have hr : r = .consumed (some (writeONodes (h.randomPeers o peers).2)) := congrArg Prod.snd hc
    rw [hs', hr]
    refine ⟨fun h => (by cases h), ?_, fun id' hne => AMap.get_put_ne _ _ hne, rfl⟩
    intro o' ho'
    cases ho'
    exact ⟨AMap.get_put_self _ _ _, rfl⟩

/-- C52: any other query for overlay `id` goes to the subscriber of `id` alone, with its own constructor
and without the overlay prefix; the subscriber's answer is the answer; no subscriber, a rejection or an
error of the subscriber is an error. No overlay is touched. -/
theorem C52_subscriber (h : Handlers O) (s : NState O) (id : Bytes) (hid : id.length = 32) (k : Nat)
    (hk : k < 2 ^ 32) (hne : k ≠ 0x48ee64ab) (rest : Bytes) :
    let query := writeU32 0xccfd8443 ++ (id ++ (writeU32 k ++ rest))
    (consumeQuery h s 0xccfd8443 query).1 = s ∧
    (s.subscribers.get id = none → (consumeQuery h s 0xccfd8443 query).2 = .error) ∧
    (∀ sub, s.subscribers.get id = some sub →
      (∀ a, sub k (writeU32 k ++ rest) = .consumed a → (consumeQuery h s 0xccfd8443 query).2 = .consumed a) ∧
      ((∀ a, sub k (writeU32 k ++ rest) ≠ .consumed a) → (consumeQuery h s 0xccfd8443 query).2 = .error)) := by
  intro query
  have hq0 : ¬ (0xccfd8443 ≠ queryId) := fun h => h rfl
  have hq : readQuery query = some (id, k, writeU32 k ++ rest) := readQuery_wire id k hk rest hid
  have hne' : k ≠ getRandomPeersId := hne
  have hc : consumeQuery h s 0xccfd8443 query = (s, passOn s id k (writeU32 k ++ rest)) := by
    unfold consumeQuery
    rw [if_neg hq0, hq]
    simp only [if_neg hne']
  rw [hc]
  refine ⟨rfl, fun hn => by simp [passOn, hn], fun sub hs => ⟨fun a ha => by simp [passOn, hs, ha], ?_⟩⟩
  intro hno
  unfold passOn
  rw [hs]
  simp only []
  cases hr : sub k (writeU32 k ++ rest) with
  | consumed a => exact absurd hr (hno a)
  | rejected q => rfl
  | error => rfl

theorem nstep_overlays {h : Handlers O} {P : O → Prop}
    (h1 : ∀ o b d, P o → P (h.ordinary o b d).1) (h2 : ∀ o b d, P o → P (h.fec o b d).1)
    (h3 : ∀ o l, P o → P (h.randomPeers o l).1) {s : NState O} {id : Bytes} {o : O}
    (ho : s.overlays.get id = some o) (hP : P o) (a : NAction O) :
    ∃ o', (nstep h s a).overlays.get id = some o' ∧ P o' := by
  have hput : ∀ (id0 : Bytes) (o0 o1 : O), s.overlays.get id0 = some o0 → (P o0 → P o1) →
      ∃ o', (s.overlays.put id0 o1).get id = some o' ∧ P o' := by
    intro id0 o0 o1 hg himp
    rw [AMap.get_put]
    split
    · rename_i he
      subst he
      rw [ho] at hg
      cases hg
      exact ⟨o1, rfl, himp hP⟩
    · exact ⟨o, ho, hP⟩
  cases a with
  | subscribe i sub =>
    simp only [nstep, addSubscriber]
    split <;> exact ⟨o, ho, hP⟩
  | register i new =>
    simp only [nstep, addOverlay]
    split
    · rename_i hn
      refine ⟨o, ?_, hP⟩
      show (s.overlays.put i new).get id = some o
      rw [AMap.get_put_ne]
      · exact ho
      · rintro rfl; rw [ho] at hn; cases hn
    · exact ⟨o, ho, hP⟩
  | custom k data =>
    simp only [nstep, consumeCustom]
    split
    · exact ⟨o, ho, hP⟩
    · split
      · exact ⟨o, ho, hP⟩
      · rename_i id0 b _
        split
        · exact ⟨o, ho, hP⟩
        · rename_i o0 hg
          refine hput id0 o0 _ hg ?_
          intro hp0
          cases b with
          | ordinary x => exact h1 _ _ _ hp0
          | fec x => exact h2 _ _ _ hp0
          | _ => exact hp0
  | query k data =>
    simp only [nstep, consumeQuery]
    split
    · exact ⟨o, ho, hP⟩
    · split
      · exact ⟨o, ho, hP⟩
      · split
        · split
          · exact ⟨o, ho, hP⟩
          · split
            · exact ⟨o, ho, hP⟩
            · rename_i o0 hg
              exact hput _ o0 _ hg (h3 _ _)
        · exact ⟨o, ho, hP⟩

theorem nstep_subscribers (h : Handlers O) {s : NState O} {id : Bytes} {sub : QuerySub}
    (hs : s.subscribers.get id = some sub) (a : NAction O) :
    (nstep h s a).subscribers.get id = some sub := by
  cases a with
  | subscribe i sub' =>
    simp only [nstep, addSubscriber]
    split
    · rename_i hn
      show (s.subscribers.put i sub').get id = some sub
      rw [AMap.get_put_ne]
      · exact hs
      · rintro rfl; rw [hs] at hn; cases hn
    · exact hs
  | register i new =>
    simp only [nstep, addOverlay]
    split <;> exact hs
  | custom k data =>
    simp only [nstep, consumeCustom]
    split
    · exact hs
    · split
      · exact hs
      · split <;> exact hs
  | query k data =>
    simp only [nstep, consumeQuery]
    split
    · exact hs
    · split
      · exact hs
      · split
        · split
          · exact hs
          · split <;> exact hs
        · exact hs

/-- C52: the first registration of an overlay stays. Whatever happens afterwards, registering `id` again
returns the same overlay and changes nothing: everything about it that its own handlers preserve (`P`: its
key, its id, its options) still holds, and the new one is dropped. -/
theorem C52_register_once (h : Handlers O) (s : NState O) (id : Bytes) (o : O) (as : List (NAction O))
    (hfree : s.overlays.get id = none) (P : O → Prop)
    (h1 : ∀ o b d, P o → P (h.ordinary o b d).1) (h2 : ∀ o b d, P o → P (h.fec o b d).1)
    (h3 : ∀ o l, P o → P (h.randomPeers o l).1) (hP : P o) :
    (addOverlay s id o).2 = (o, true) ∧
    ∃ o', P o' ∧ (nrun h (addOverlay s id o).1 as).overlays.get id = some o' ∧
      ∀ new, addOverlay (nrun h (addOverlay s id o).1 as) id new =
        (nrun h (addOverlay s id o).1 as, (o', false)) := by
  have h0 : (addOverlay s id o).2 = (o, true) := by simp [addOverlay, hfree]
  have hg : (addOverlay s id o).1.overlays.get id = some o := by
    simp [addOverlay, hfree]
  refine ⟨h0, ?_⟩
  have : ∀ (as : List (NAction O)) (t : NState O) (o : O), t.overlays.get id = some o → P o →
      ∃ o', P o' ∧ (nrun h t as).overlays.get id = some o' := by
    intro as
    induction as with
    | nil => intro t o ht hp; exact ⟨o, hp, ht⟩
    | cons a as ih =>
      intro t o ht hp
      obtain ⟨o', ho', hp'⟩ := nstep_overlays h1 h2 h3 ht hp a
      exact ih _ o' ho' hp'
  obtain ⟨o', hp', ho'⟩ := this as _ o hg hP
  refine ⟨o', hp', ho', fun new => ?_⟩
  generalize nrun h (addOverlay s id o).1 as = t at ho' ⊢
  simp [addOverlay, ho']

/-- C52: the first subscriber of an overlay stays for ever; later ones are refused. -/
theorem C52_subscribe_once (h : Handlers O) (s : NState O) (id : Bytes) (sub : QuerySub)
    (as : List (NAction O)) (hfree : s.subscribers.get id = none) :
    (addSubscriber s id sub).2 = true ∧
    (nrun h (addSubscriber s id sub).1 as).subscribers.get id = some sub ∧
    ∀ new, addSubscriber (nrun h (addSubscriber s id sub).1 as) id new =
      (nrun h (addSubscriber s id sub).1 as, false) := by
  have h0 : (addSubscriber s id sub).2 = true := by simp [addSubscriber, hfree]
  have hg : (addSubscriber s id sub).1.subscribers.get id = some sub := by
    simp [addSubscriber, hfree]
  have : ∀ (as : List (NAction O)) (t : NState O), t.subscribers.get id = some sub →
      (nrun h t as).subscribers.get id = some sub := by
    intro as
    induction as with
    | nil => intro t ht; exact ht
    | cons a as ih => intro t ht; exact ih _ (nstep_subscribers h ht a)
  have hk := this as _ hg
  refine ⟨h0, hk, fun new => ?_⟩
  generalize nrun h (addSubscriber s id sub).1 as = t at hk ⊢
  simp [addSubscriber, hk]

/-! ### Examples -/

/-- Overlays that count the broadcasts they got. -/
def countHandlers : Handlers (Nat × Nat) :=
  ⟨fun o _ _ => ((o.1, o.2 + 1), true), fun o _ _ => ((o.1, o.2 + 100), o.2 == 0), fun o l => (o, l)⟩

def nodeWith : NState (Nat × Nat) :=
  ⟨[(List.replicate 32 1, (7, 0)), (List.replicate 32 2, (8, 0))],
   [(List.replicate 32 2, fun k q => if k = 5 then .consumed (some q) else .rejected q)]⟩

def plainBroadcast : Broadcast :=
  .ordinary ⟨.ed25519 (List.replicate 32 3), .empty, 0, [1, 2, 3], 100, List.replicate 64 4⟩

example : plainBroadcast.wf ∧ (List.replicate 32 (1 : UInt8)).length = 32 :=
  ⟨⟨rfl, trivial, by decide, by decide, by decide, by decide⟩, rfl⟩

example : (consumeCustom countHandlers nodeWith 0x75252420
    (writeU32 0x75252420 ++ (List.replicate 32 2 ++ (writeBroadcast plainBroadcast ++ [9])))).1.overlays.get
    (List.replicate 32 2) = some (8, 1) := by decide +kernel

example : (consumeQuery countHandlers nodeWith 0xccfd8443
    (writeU32 0xccfd8443 ++ (List.replicate 32 2 ++ (writeU32 5 ++ [1, 2])))).2 =
    .consumed (some (writeU32 5 ++ [1, 2])) := by decide +kernel

example : (consumeQuery countHandlers nodeWith 0xccfd8443
    (writeU32 0xccfd8443 ++ (List.replicate 32 1 ++ (writeU32 5 ++ [1, 2])))).2 = .error := by decide +kernel

/-- The first component (the identity of the overlay) is preserved by its handlers, and id 3 is free. -/
example : nodeWith.overlays.get (List.replicate 32 3) = none ∧
    (∀ (o : Nat × Nat) b d, o.1 = 7 → (countHandlers.ordinary o b d).1.1 = 7) := by
  exact ⟨by decide, fun o b d h => h⟩

example : consumeCustom countHandlers nodeWith 5 [1, 2] = (nodeWith, some false) ∧
    consumeQuery countHandlers nodeWith 5 [1, 2] = (nodeWith, .rejected [1, 2]) :=
  ⟨C52_other_messages _ _ 5 _ (by decide), C52_other_queries _ _ 5 _ (by decide)⟩

example := C52_broadcast countHandlers nodeWith (List.replicate 32 2) rfl plainBroadcast
  ⟨rfl, trivial, by decide, by decide, by decide, by decide⟩ [9]

example : (consumeQuery countHandlers nodeWith 0xccfd8443
    (writeU32 0xccfd8443 ++ (List.replicate 32 1 ++ (writeGetRandomPeers [] ++ [])))).2 = .consumed (some (writeONodes [])) :=
  ((C52_random_peers countHandlers nodeWith (List.replicate 32 1) rfl [] (by decide) (fun n hn => by cases hn) []).2.1
    (7, 0) (by decide)).2

example : (consumeQuery countHandlers nodeWith 0xccfd8443
    (writeU32 0xccfd8443 ++ (List.replicate 32 3 ++ (writeU32 5 ++ [1, 2])))).2 = .error :=
  (C52_subscriber countHandlers nodeWith (List.replicate 32 3) rfl 5 (by decide) (by decide) [1, 2]).2.1 (by decide)

example : ∃ o', o'.1 = 9 ∧ (nrun countHandlers (addOverlay nodeWith (List.replicate 32 3) (9, 0)).1
    [.custom 0x75252420 (writeU32 0x75252420 ++ (List.replicate 32 3 ++ writeBroadcast plainBroadcast))]).overlays.get
      (List.replicate 32 3) = some o' := by
  obtain ⟨-, o', h1, h2, -⟩ := C52_register_once countHandlers nodeWith (List.replicate 32 3) (9, 0)
    [.custom 0x75252420 (writeU32 0x75252420 ++ (List.replicate 32 3 ++ writeBroadcast plainBroadcast))] (by decide)
    (fun o => o.1 = 9) (fun o b d h => h) (fun o b d h => h) (fun o l h => h) rfl
  exact ⟨o', h1, h2⟩

end Verif.Props
