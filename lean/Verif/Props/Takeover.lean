import Verif.Props.BroadcastSend

/-!
# C130: taking over and suppressing the ordinary broadcasts of others
-/
namespace Verif.Takeover
open Verif.Tl Verif.AdnlProto Verif.Rldp Verif.Overlay

variable {c : Crypto} {f : Fec}

/-! ### Specification -/

/-- The application has been given some data as a broadcast of the source in the course of a run. -/
def Given (c : Crypto) (f : Fec) (e : Env) (as : List Action) (data source : Bytes) : Prop :=
  ∃ x ∈ trace c f e (State.init c f) as, ∃ n, x.2.delivered = some ⟨n, data, source⟩

/-- Whoever receives the broadcast of a member in time and has not been given this data from this member before
gives it to the application as a broadcast of this member, whatever was received before. -/
def C130_full : Prop := ∀ (c : Crypto) (f : Fec) (e : Env) (compressing : Bool) (as : List Action) (now now' : Nat)
  (sec : c.Sec) (data : Bytes), c.Lawful → e.z.Lawful → data.length < 2 ^ 32 → now + e.timeout < 2 ^ 32 →
  now' ≤ now + e.timeout → Unmistakable c e.z sec data now → (∀ bid, Action.own bid ∉ as) →
  ¬ Given c f e as data (Node.shortId c (c.pubOf sec)) →
  (step c f e (run c f e (State.init c f) as)
    (.ordinary now' (ordinaryOf c e.z compressing now sec data))).2.delivered =
      some ⟨1, data, Node.shortId c (c.pubOf sec)⟩

/-- Two different texts with the same hash, among those that are hashed for two broadcasts. -/
def Collides (sha : Bytes → Bytes) (src src' data data' : Bytes) (date date' : Nat) : Prop :=
  (data ≠ data' ∧ sha data = sha data') ∨
  (leBytes 4 0x51fd789a ++ (src ++ (sha data ++ leBytes 4 1)) ≠
      leBytes 4 0x51fd789a ++ (src' ++ (sha data' ++ leBytes 4 1)) ∧
    sha (leBytes 4 0x51fd789a ++ (src ++ (sha data ++ leBytes 4 1))) =
      sha (leBytes 4 0x51fd789a ++ (src' ++ (sha data' ++ leBytes 4 1)))) ∨
  (ordinaryText sha src data date ≠ ordinaryText sha src' data' date' ∧
    sha (ordinaryText sha src data date) = sha (ordinaryText sha src' data' date'))

/-- What can stand in the way of the broadcast of some data in some second: the node's own use of the identity, a
part of an FEC broadcast with the identity as its data hash (whoever signed it, if at all), and an ordinary
broadcast that passes the checks and has the same data and second and does not name its source in what is signed
(or has the same hash by accident). -/
def Blocks (c : Crypto) (e : Env) (data : Bytes) (now : Nat) : Action → Prop
  | .own bid => bid = ordinaryId c data now
  | .fec now' b => b.dataHash = ordinaryId c data now ∧ b.signature.length = 64 ∧ now' ≤ b.date + e.timeout
  | .ordinary now' b => ∃ data' source, checkOrdinary c e now' b = .ok (ordinaryId c data now) data' source ∧
      ((data' = data ∧ b.date = now ∧ slot b source = List.replicate 32 0) ∨
        Collides c.sha (slot b source) (List.replicate 32 0) data' data b.date now)
  | _ => False

/-! ### Where the remembered identities come from -/

theorem ids_bind {sha : Bytes → Bytes} (hsha : ∀ x, (sha x).length = 32) {src src' data data' : Bytes}
    {date date' : Nat} (hs : src.length = 32) (hs' : src'.length = 32) (hd : date < 2 ^ 32) (hd' : date' < 2 ^ 32)
    (h : sha (ordinaryText sha src data date) = sha (ordinaryText sha src' data' date')) :
    (data = data' ∧ date = date' ∧ src = src') ∨ Collides sha src src' data data' date date' := by
  by_cases ht : ordinaryText sha src data date = ordinaryText sha src' data' date'
  · obtain ⟨h1, h2⟩ := C45_text_binds sha hsha src src' data data' date date' hs hs' hd hd' ht
    rcases h2 with ⟨h2, h3⟩ | ⟨x, y, h2, h3, h4⟩
    · exact .inl ⟨h3, h1, h2⟩
    · rcases h4 with ⟨rfl, rfl⟩ | ⟨rfl, rfl⟩
      · exact .inr (.inl ⟨h2, h3⟩)
      · exact .inr (.inr (.inl ⟨h2, h3⟩))
  · exact .inr (.inr (.inr ⟨ht, h⟩))

/-- The steps that can make the identity remembered. -/
def Marks (c : Crypto) (e : Env) (bid : Bytes) : Action → Prop
  | .own b => b = bid
  | .fec now b => b.dataHash = bid ∧ b.signature.length = 64 ∧ now ≤ b.date + e.timeout
  | .ordinary now b => ∃ data source, checkOrdinary c e now b = .ok bid data source
  | _ => False

theorem feed_owned (s : State c f) (i : Nat) (t : Transfer c f) (pub : c.Pub) (source : Bytes) (b : FecPart) :
    (feed c f s i t pub source b).1.owned = s.owned := by
  unfold Overlay.feed
  simp only
  split
  · rfl
  · split
    · rfl
    · split
      · rfl
      · split <;> rfl

theorem task_owned (e : Env) (s : State c f) (i : Nat) : (taskStep c f e s i).1.owned = s.owned := by
  unfold taskStep
  split
  · rfl
  · split
    · rfl
    · split
      · split <;> rfl
      · split <;> rfl

theorem mark_owned (s : State c f) (i : Nat) : (markStep c f s i).owned = s.owned := by
  unfold markStep
  split
  · rfl
  · split
    · rfl
    · simp only
      split
      · split <;> rfl
      · rfl

theorem cleanup_owned (e : Env) (s : State c f) (i : Nat) : (cleanupStep c f e s i).owned = s.owned := by
  unfold cleanupStep
  split
  · rfl
  · split
    · rfl
    · split <;> rfl

theorem put_some {m : AMap Bytes Owned} {k bid : Bytes} {v : Owned} (h : ((m.put k v).get bid).isSome) :
    k = bid ∨ (m.get bid).isSome := by
  by_cases hk : k = bid
  · exact .inl hk
  · rw [AMap.get_put_ne _ _ (Ne.symm hk)] at h
    exact .inr h

theorem step_marks (e : Env) (s : State c f) (a : Action) (bid : Bytes)
    (h : ((step c f e s a).1.owned.get bid).isSome) : (s.owned.get bid).isSome ∨ Marks c e bid a := by
  cases a with
  | tick ms => exact .inl h
  | ordinary now b =>
    simp only [step, receiveOrdinary] at h
    cases hx : checkOrdinary c e now b with
    | outdated => rw [hx] at h; exact .inl h
    | failed => rw [hx] at h; exact .inl h
    | ok bid' data source =>
      rw [hx] at h
      simp only at h
      cases ho : s.owned.get bid' with
      | some x => rw [ho] at h; exact .inl h
      | none =>
        rw [ho] at h
        rcases put_some h with rfl | h
        · exact .inr ⟨data, source, hx⟩
        · exact .inl h
  | fec now b =>
    simp only [step, receiveFec] at h
    cases ht : isOutdated e b.date now with
    | none => rw [ht] at h; exact .inl h
    | some x =>
      rw [ht] at h
      cases x with
      | true => exact .inl h
      | false =>
        simp only at h
        cases hp : Receiver.fullId c b.src with
        | none => rw [hp] at h; exact .inl h
        | some pub =>
          rw [hp] at h
          simp only at h
          by_cases hl : b.signature.length ≠ 64
          · rw [if_pos hl] at h; exact .inl h
          · rw [if_neg hl] at h
            have key : ∀ s' : State c f, s'.owned = (if (s.owned.get b.dataHash).isNone then
                newTransfer c f e s b (Node.shortId c pub) else s).owned → (s'.owned.get bid).isSome →
                (s.owned.get bid).isSome ∨ Marks c e bid (.fec now b) := by
              intro s' hs' hh
              rw [hs'] at hh
              by_cases hn : (s.owned.get b.dataHash).isNone
              · rw [if_pos hn] at hh
                rcases put_some hh with hk | hh
                · exact .inr ⟨hk, by omega, (isOutdated_false ht)⟩
                · exact .inl hh
              · rw [if_neg hn] at hh; exact .inl hh
            split at h
            · split at h
              · exact key _ (feed_owned _ _ _ _ _ _) h
              · exact key _ rfl h
            · exact key _ rfl h
  | own b =>
    simp only [step, createOwn] at h
    cases ho : s.owned.get b with
    | some x => rw [ho] at h; exact .inl h
    | none =>
      rw [ho] at h
      rcases put_some h with rfl | h
      · exact .inr rfl
      · exact .inl h
  | task i => simp only [step, task_owned] at h; exact .inl h
  | mark i => simp only [step, mark_owned] at h; exact .inl h
  | cleanup i => simp only [step, cleanup_owned] at h; exact .inl h
  | expire i =>
    simp only [step] at h
    split at h
    · exact .inl h
    · split at h <;> exact .inl h
  | push i =>
    simp only [step] at h
    split at h <;> exact .inl h
  | gcCheck =>
    simp only [step] at h
    split at h <;> exact .inl h
  | gcPop =>
    simp only [step] at h
    split at h
    · split at h
      · exact .inl h
      · simp only [AMap.get_erase] at h
        split at h
        · cases h
        · exact .inl h
    · exact .inl h
  | gcSub =>
    simp only [step] at h
    split at h <;> exact .inl h

theorem run_marks (e : Env) (bid : Bytes) : ∀ (as : List Action) (s : State c f),
    ((run c f e s as).owned.get bid).isSome → (s.owned.get bid).isSome ∨ ∃ a ∈ as, Marks c e bid a := by
  intro as
  induction as with
  | nil => intro s h; exact .inl h
  | cons a as ih =>
    intro s h
    rcases ih _ h with h | ⟨x, hx, h⟩
    · rcases step_marks e s a bid h with h | h
      · exact .inl h
      · exact .inr ⟨a, List.mem_cons_self .., h⟩
    · exact .inr ⟨x, List.mem_cons_of_mem _ hx, h⟩

/-! ### C130 -/

theorem slot_length (hc : c.Lawful) {e : Env} {now : Nat} {b : Ordinary} {bid data source : Bytes}
    (h : checkOrdinary c e now b = .ok bid data source) : (slot b source).length = 32 := by
  obtain ⟨_, ⟨k, pub, _, _, rfl, _⟩, _⟩ := check_ok h
  unfold slot
  split
  · exact hc.sha_length _
  · exact List.length_replicate ..

/-- C130, as far as it holds: whatever was received before, a broadcast that arrives in time is given to the
application with the data and the name of its author unless something of the following was there before: the
node's own broadcast of the same data in the same second, a broadcast of the same data and second from anyone
that does not name its source in what is signed, or a part of an FEC broadcast, of anyone and with any signature,
that gives the identity of the broadcast as its data hash. -/
theorem C130_partial (hc : c.Lawful) (e : Env) (hz : e.z.Lawful) (compressing : Bool) (as : List Action)
    (hw : ∀ n b, Action.ordinary n b ∈ as → b.date < 2 ^ 32) (now now' : Nat) (sec : c.Sec) (data : Bytes)
    (hd : data.length < 2 ^ 32) (ht : now + e.timeout < 2 ^ 32) (hn : now' ≤ now + e.timeout)
    (hu : Unmistakable c e.z sec data now) (hfree : ∀ a ∈ as, ¬ Blocks c e data now a) :
    (step c f e (run c f e (State.init c f) as)
      (.ordinary now' (ordinaryOf c e.z compressing now sec data))).2.delivered =
        some ⟨1, data, Node.shortId c (c.pubOf sec)⟩ := by
  simp only [step, receiveOrdinary]
  rw [check_sent hc hz rfl hd ht hn hu]
  simp only
  cases ho : (run c f e (State.init c f) as).owned.get (ordinaryId c data now) with
  | none => rfl
  | some x =>
    exfalso
    rcases run_marks e (ordinaryId c data now) as (State.init c f) (by rw [ho]; rfl) with h | ⟨a, ha, h⟩
    · cases h
    · refine hfree a ha ?_
      cases a with
      | own b => exact h
      | fec n b => exact h
      | ordinary n b =>
        obtain ⟨data', source, h⟩ := h
        refine ⟨data', source, h, ?_⟩
        have h4 := (check_ok h).2.2.2
        exact ids_bind hc.sha_length (slot_length hc h) (List.length_replicate ..) (hw n b ha) (by omega) h4.symm
      | _ => exact h

/-- C130: how a broadcast is taken over. Whoever sends the same data with the same date under its own name and is
first gets the data delivered as its own; the author's broadcast, arriving at any later time before it is too old
by the node's own clock, is then not delivered. -/
theorem C130_taken (hc : c.Lawful) (e : Env) (hz : e.z.Lawful) (compressing compressing' : Bool)
    (before after : List Action) (now now₁ now₂ : Nat) (sec thief : c.Sec) (data : Bytes)
    (hd : data.length < 2 ^ 32) (ht : now + e.timeout < 2 ^ 32) (hn : now₁ ≤ now + e.timeout)
    (hu : Unmistakable c e.z sec data now) (hu' : Unmistakable c e.z thief data now)
    (hnew : (run c f e (State.init c f) before).owned.get (ordinaryId c data now) = none)
    (hclock : (run c f e (State.init c f)
      (before ++ (.ordinary now₁ (ordinaryOf c e.z compressing' now thief data) :: after))).clock <
        (run c f e (State.init c f) before).clock + 1000 * e.timeout) :
    (step c f e (run c f e (State.init c f) before)
      (.ordinary now₁ (ordinaryOf c e.z compressing' now thief data))).2.delivered =
        some ⟨1, data, Node.shortId c (c.pubOf thief)⟩ ∧
    (step c f e (run c f e (State.init c f)
      (before ++ (.ordinary now₁ (ordinaryOf c e.z compressing' now thief data) :: after)))
      (.ordinary now₂ (ordinaryOf c e.z compressing now sec data))).2.delivered = none := by
  have hrun : ∀ (xs ys : List Action) (s : State c f), run c f e s (xs ++ ys) = run c f e (run c f e s xs) ys := by
    intro xs
    induction xs with
    | nil => intro ys s; rfl
    | cons x xs ih => intro ys s; exact ih ys _
  have hst : step c f e (run c f e (State.init c f) before)
      (.ordinary now₁ (ordinaryOf c e.z compressing' now thief data)) =
      ({ run c f e (State.init c f) before with
          owned := (run c f e (State.init c f) before).owned.put (ordinaryId c data now) .other }.spawnGc e
            (ordinaryId c data now),
        { delivered := some ⟨1, data, Node.shortId c (c.pubOf thief)⟩, forwarded := true }) := by
    simp only [step, receiveOrdinary]
    rw [check_sent hc hz rfl hd ht hn hu']
    simp only [hnew]
  rw [hrun] at hclock ⊢
  refine ⟨by rw [hst], ?_⟩
  change (run c f e (step c f e _ _).1 after).clock < _ at hclock
  change (step c f e (run c f e (step c f e _ _).1 after) _).2.delivered = none
  rw [hst] at hclock ⊢
  have hk := kept_new (e := e) (TInv.run e before (TInv.init (c := c) (f := f))) hnew
  have keep : ∀ (as : List Action) (s : State c f) (t : Nat), (s.clock < t → Kept (ordinaryId c data now) t (view s)) →
      ((run c f e s as).clock < t → Kept (ordinaryId c data now) t (view (run c f e s as))) := by
    intro as
    induction as with
    | nil => intro s t h; exact h
    | cons a as ih => intro s t h; exact ih _ t (Kept.eff h (step_eff e s a))
  have hkept := keep after _ _ (fun _ => hk) hclock
  cases hx : (step c f e (run c f e ({ run c f e (State.init c f) before with
      owned := (run c f e (State.init c f) before).owned.put (ordinaryId c data now) .other }.spawnGc e
        (ordinaryId c data now)) after) (.ordinary now₂ (ordinaryOf c e.z compressing now sec data))).2.delivered with
  | none => rfl
  | some d =>
    obtain ⟨bid, h3, h4, _⟩ := delivered_ordinary hx
    have hn' : now₂ ≤ now + e.timeout := (check_ok h3).1
    rw [check_sent hc hz rfl hd ht hn' hu] at h3
    simp only [Checked.ok.injEq] at h3
    rw [← h3.1] at h4
    exact absurd hkept.key (AMap.get_eq_none_iff.mp h4)

/-- C130: how a broadcast is suppressed without being replaced. One part of an FEC broadcast that gives the
identity of the broadcast as its data hash is enough; its signature is not looked at, only its length. -/
theorem C130_suppressed (hc : c.Lawful) (e : Env) (hz : e.z.Lawful) (compressing : Bool) (s : State c f)
    (now now₁ now₂ : Nat) (sec : c.Sec) (data : Bytes) (hd : data.length < 2 ^ 32) (ht : now + e.timeout < 2 ^ 32)
    (hu : Unmistakable c e.z sec data now) (p : FecPart) (pub : c.Pub) (hp : Receiver.fullId c p.src = some pub)
    (hl : p.signature.length = 64) (hid : p.dataHash = ordinaryId c data now)
    (hpt : p.date + e.timeout < 2 ^ 32) (hpn : now₁ ≤ p.date + e.timeout) :
    (step c f e s (.fec now₁ p)).2.delivered = none ∧
    (step c f e (step c f e s (.fec now₁ p)).1
      (.ordinary now₂ (ordinaryOf c e.z compressing now sec data))).2.delivered = none := by
  have hfeed : ∀ (s' : State c f) (i : Nat) (t : Transfer c f) (src : Bytes),
      (feed c f s' i t pub src p).2.delivered = none := by
    intro s' i t src
    unfold Overlay.feed
    simp only
    split
    · rfl
    · split
      · rfl
      · split
        · rfl
        · split <;> rfl
  have hst : (step c f e s (.fec now₁ p)).2.delivered = none ∧
      ((step c f e s (.fec now₁ p)).1.owned.get (ordinaryId c data now)).isSome := by
    simp only [step, receiveFec, isOutdated_of hpt hpn, hp]
    rw [if_neg (by omega)]
    have hsome : ((if (s.owned.get p.dataHash).isNone then
        newTransfer c f e s p (Node.shortId c pub) else s).owned.get (ordinaryId c data now)).isSome := by
      rw [← hid]
      by_cases h : (s.owned.get p.dataHash).isNone
      · rw [if_pos h]; simp [newTransfer]
      · rw [if_neg h]; cases hx : s.owned.get p.dataHash <;> simp_all
    split
    · split
      · exact ⟨hfeed _ _ _ _, by rw [feed_owned]; exact hsome⟩
      · exact ⟨rfl, hsome⟩
    · exact ⟨rfl, hsome⟩
  refine ⟨hst.1, ?_⟩
  cases hx : (step c f e (step c f e s (.fec now₁ p)).1
      (.ordinary now₂ (ordinaryOf c e.z compressing now sec data))).2.delivered with
  | none => rfl
  | some d =>
    obtain ⟨bid, h3, h4, _⟩ := delivered_ordinary hx
    have hn' : now₂ ≤ now + e.timeout := (check_ok h3).1
    rw [check_sent hc hz rfl hd ht hn' hu] at h3
    simp only [Checked.ok.injEq] at h3
    rw [← h3.1] at h4
    rw [h4] at hst
    cases hst.2

/-- C130: what would have helped against a take-over. A broadcast whose flags ask for the source in what is signed
has an identity that only a broadcast with the same source, data and date has, unless two different texts with the
same hash are at hand. -/
theorem C130_named (hc : c.Lawful) (e : Env) (now now' : Nat) (b b' : Ordinary) (bid data data' source source' : Bytes)
    (hb : b.date < 2 ^ 32) (hb' : b'.date < 2 ^ 32) (hflags : b.flags % 2 = 0)
    (hsrc : source ≠ List.replicate 32 0) (h : checkOrdinary c e now b = .ok bid data source)
    (h' : checkOrdinary c e now' b' = .ok bid data' source') :
    (data' = data ∧ b'.date = b.date ∧ source' = source) ∨
      Collides c.sha (slot b' source') source data' data b'.date b.date := by
  have h1 := (check_ok h).2.2.2
  have h2 := (check_ok h').2.2.2
  have hs : slot b source = source := by unfold slot; rw [if_pos hflags]
  have l1 := slot_length hc h
  rw [hs] at h1 l1
  rcases ids_bind hc.sha_length (slot_length hc h') l1 hb' hb (h2.symm.trans h1) with ⟨h3, h4, h5⟩ | h3
  · refine .inl ⟨h3, h4, ?_⟩
    unfold slot at h5
    split at h5
    · exact h5
    · exact absurd h5.symm hsrc
  · exact .inr h3

namespace Example

theorem unmistakable (k : UInt8) : Unmistakable Crypto.toy sampleEnv.z k [1] 100 := by
  intro d h
  have : decompress sampleEnv.z [1] = none := by decide
  rw [this] at h; cases h

/-- The broadcast of `[1]` in second 100 by a key. -/
def bcast (k : UInt8) : Ordinary := ordinaryOf Crypto.toy sampleEnv.z false 100 k [1]

/-- `C130_taken` applies: key 9 is first, key 5 comes 59 seconds later. -/
example := C130_taken (f := Fec.toy) Crypto.toy_lawful sampleEnv ⟨fun _ _ => rfl⟩ false false [] [.tick 59000]
  100 100 159 (5 : UInt8) (9 : UInt8) [1] (by decide) (by decide) (by decide) (unmistakable 5) (unmistakable 9) rfl
  (by decide)

/-- A part that names the identity of that broadcast, of key 9, with nonsense for a signature. -/
def junk : FecPart :=
  ⟨.ed25519 (Crypto.toy.pubBytes (Crypto.toy.pubOf (9 : UInt8))), .empty, ordinaryId Crypto.toy [1] 100, 1, 1, [], 0,
    ⟨1, 1, 1⟩, 100, List.replicate 64 7⟩

/-- `C130_suppressed` applies: after this part the broadcast of key 5 is dropped. -/
example := C130_suppressed (f := Fec.toy) Crypto.toy_lawful sampleEnv ⟨fun _ _ => rfl⟩ false (State.init _ _) 100 100
  101 (5 : UInt8) [1] (by decide) (by decide) (unmistakable 5) junk (Crypto.toy.pubOf (9 : UInt8))
  (Crypto.toy_lawful.decode_pub _)
  (by decide) rfl (by decide) (by decide)

/-- `C130_partial` applies after some time and the collection of old entries. -/
example := C130_partial (f := Fec.toy) Crypto.toy_lawful sampleEnv ⟨fun _ _ => rfl⟩ false [.tick 5, .gcCheck, .task 0]
  (by simp) 100 130 (5 : UInt8) [1] (by decide) (by decide) (by decide) (unmistakable 5) (by
    intro a ha
    simp only [List.mem_cons, List.not_mem_nil, or_false] at ha
    rcases ha with rfl | rfl | rfl <;> exact id)

/-- A broadcast of key 5 that names its source in what is signed. -/
def named : Ordinary := { bcast 5 with
  flags := 0
  signature := Crypto.toy.sign (5 : UInt8) (ordinaryText Crypto.toy.sha
    (Node.shortId Crypto.toy (Crypto.toy.pubOf (5 : UInt8))) [1] 100) }

theorem named_ok (now : Nat) (h : now ≤ 160) : checkOrdinary Crypto.toy sampleEnv now named =
    .ok (Crypto.toy.sha (ordinaryText Crypto.toy.sha (Node.shortId Crypto.toy (Crypto.toy.pubOf (5 : UInt8))) [1] 100))
      [1] (Node.shortId Crypto.toy (Crypto.toy.pubOf (5 : UInt8))) := by
  unfold checkOrdinary
  have : isOutdated sampleEnv named.date now = some false := isOutdated_of (by decide) h
  rw [this]
  decide +kernel

/-- `C130_named` applies: the same broadcast twice. -/
example := C130_named Crypto.toy_lawful sampleEnv 100 150 named named _ [1] [1] _ _ (by decide) (by decide) rfl
  (by decide +kernel) (named_ok 100 (by decide)) (named_ok 150 (by decide))

end Example

theorem C130_full_false : ¬ C130_full := by
  intro h
  have := h Crypto.toy Fec.toy sampleEnv false [.ordinary 100 (Example.bcast 9)] 100 100 (5 : UInt8) [1]
    Crypto.toy_lawful ⟨fun _ _ => rfl⟩ (by decide) (by decide) (by decide) (Example.unmistakable 5)
    (by intro bid; simp)
    (by
      rintro ⟨x, hx, n, hn⟩
      have hx' : x = (.ordinary 100 (Example.bcast 9), { delivered := some ⟨1, [1],
          Node.shortId Crypto.toy (Crypto.toy.pubOf (9 : UInt8))⟩, forwarded := true }) := by
        simp only [trace, List.mem_cons, List.not_mem_nil, or_false] at hx
        rw [hx]
        rfl
      rw [hx'] at hn
      simp only [Option.some.injEq, Delivery.mk.injEq] at hn
      exact absurd hn.2.2 (by decide +kernel))
  revert this
  decide +kernel

end Verif.Takeover
