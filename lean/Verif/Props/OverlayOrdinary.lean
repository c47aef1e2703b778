import Verif.Proofs.OverlayLog
import Verif.Proofs.Num
import Verif.Props.RldpReceive

/-!
# C45: ordinary broadcasts are authentic, in date and delivered once
-/
namespace Verif.Overlay
open Verif.AdnlProto Verif.Rldp

variable {c : Crypto} {f : Fec}

/-! ### Specification -/

/-- The signed text of an ordinary broadcast: `overlay.broadcast.toSign` of the hash of
`overlay.broadcast.id` (source or zeros, hash of the data, the constant 1) and of the date. -/
def ordinaryText (sha : Bytes → Bytes) (src data : Bytes) (date : Nat) : Bytes :=
  leBytes 4 0xfa374e7c ++ (sha (leBytes 4 0x51fd789a ++ (src ++ (sha data ++ leBytes 4 1))) ++ leBytes 4 date)

/-- The source named in the signed text: the sender if the lowest bit of the flags is clear. -/
def slot (b : Ordinary) (source : Bytes) : Bytes :=
  if b.flags % 2 = 0 then source else List.replicate 32 0

/-- The ordinary broadcast given to the application by a step: the wall clock, the message, and what was
delivered. -/
def ordinaryDelivery : Action → Out → Option (Nat × Ordinary × Delivery)
  | .ordinary now b, o => o.delivered.map fun d => (now, b, d)
  | _, _ => none

/-- All of them in the course of a run. -/
def ordinaryDeliveries (e : Env) (s : State c f) : List Action → List (Nat × Ordinary × Delivery)
  | [] => []
  | a :: as => (ordinaryDelivery a (step c f e s a).2).toList ++ ordinaryDeliveries e (step c f e s a).1 as

/-- The same broadcast: same content, date and named source. -/
def Same (x y : Nat × Ordinary × Delivery) : Prop :=
  x.2.2.data = y.2.2.data ∧ x.2.1.date = y.2.1.date ∧ slot x.2.1 x.2.2.source = slot y.2.1 y.2.2.source

/-- The wall clock goes with the time of the timers. -/
def Synced (e : Env) (s : State c f) : List Action → Prop
  | [] => True
  | a :: as => (∀ now b, a = .ordinary now b → now = s.clock / 1000) ∧ Synced e (step c f e s a).1 as

/-! ### Authentic and in date -/

theorem text_eq (sha : Bytes → Bytes) (data source : Bytes) (b : Ordinary) :
    ordinaryToSign sha data b.date (if sourceMatters b.flags then some source else none) =
      ordinaryText sha (slot b source) data b.date := by
  unfold ordinaryToSign ordinaryText writeToSign Tl.writeU32 anySender sourceBytes slot sourceMatters
  by_cases h : b.flags % 2 = 0 <;> simp [h]

theorem isOutdated_false {e : Env} {date now : Nat} (h : isOutdated e date now = some false) :
    now ≤ date + e.timeout := by
  unfold isOutdated addU32 at h
  have hm : e.timeout % 2 ^ 32 ≤ e.timeout := Nat.mod_le _ _
  by_cases h1 : date + e.timeout % 2 ^ 32 < 2 ^ 32
  · rw [if_pos h1] at h
    simp at h
    omega
  · rw [if_neg h1] at h
    cases hb : e.build with
    | debug => rw [hb] at h; cases h
    | release =>
      rw [hb] at h
      simp only [Option.map_some, Option.some.injEq, decide_eq_false_iff_not] at h
      have : (date + e.timeout % 2 ^ 32) % 2 ^ 32 ≤ date + e.timeout % 2 ^ 32 := Nat.mod_le _ _
      omega

/-- What passing the checks means. -/
theorem check_ok {e : Env} {now : Nat} {b : Ordinary} {bid data source : Bytes}
    (h : checkOrdinary c e now b = .ok bid data source) :
    now ≤ b.date + e.timeout ∧
    (∃ k pub, b.src = .ed25519 k ∧ c.decodePub k = some pub ∧ source = Node.shortId c pub ∧
      b.signature.length = 64 ∧
      c.verify pub (ordinaryText c.sha (slot b source) data b.date) b.signature = true) ∧
    (data = b.data ∨ decompress e.z b.data = some data) ∧
    bid = c.sha (ordinaryText c.sha (slot b source) data b.date) := by
  unfold checkOrdinary at h
  cases ho : isOutdated e b.date now with
  | none => rw [ho] at h; cases h
  | some x =>
    rw [ho] at h
    cases x with
    | true => cases h
    | false =>
      refine ⟨isOutdated_false ho, ?_⟩
      simp only at h
      cases hs : b.src with
      | ed25519 k =>
        rw [hs] at h
        simp only [Receiver.fullId] at h
        cases hk : c.decodePub k with
        | none => rw [hk] at h; cases h
        | some pub =>
          rw [hk] at h
          simp only [text_eq] at h
          have key : ∀ d : Bytes, Storage.verifySig c pub
              (ordinaryText c.sha (slot b (Node.shortId c pub)) d b.date) b.signature = true →
              Checked.ok (c.sha (ordinaryText c.sha (slot b (Node.shortId c pub)) d b.date)) d
                (Node.shortId c pub) = .ok bid data source → (d = b.data ∨ decompress e.z b.data = some d) →
              (∃ k' pub', PubKey.ed25519 k = .ed25519 k' ∧ c.decodePub k' = some pub' ∧
                source = Node.shortId c pub' ∧ b.signature.length = 64 ∧
                c.verify pub' (ordinaryText c.sha (slot b source) data b.date) b.signature = true) ∧
              (data = b.data ∨ decompress e.z b.data = some data) ∧
              bid = c.sha (ordinaryText c.sha (slot b source) data b.date) := by
            intro d hv he hd
            simp only [Checked.ok.injEq] at he
            obtain ⟨h1, h2, h3⟩ := he
            subst h1 h2 h3
            simp only [Storage.verifySig, Bool.and_eq_true, decide_eq_true_eq] at hv
            exact ⟨⟨k, pub, rfl, hk, rfl, hv.1, hv.2⟩, hd, rfl⟩
          cases hd : decompress e.z b.data with
          | none =>
            rw [hd] at h
            simp only at h
            split at h
            · next hv => rw [← hd]; exact key b.data hv h (.inl rfl)
            · cases h
          | some d =>
            rw [hd] at h
            simp only at h
            split at h
            · next hv => rw [← hd]; exact key d hv h (.inr hd)
            · split at h
              · next hv => rw [← hd]; exact key b.data hv h (.inl rfl)
              · cases h
      | aes k => rw [hs] at h; cases h
      | overlay n => rw [hs] at h; cases h
      | unenc d => rw [hs] at h; cases h

/-- What a delivery means for the checks and the table. -/
theorem delivered_ordinary {e : Env} {s : State c f} {now : Nat} {b : Ordinary} {d : Delivery}
    (h : (step c f e s (.ordinary now b)).2.delivered = some d) :
    ∃ bid, checkOrdinary c e now b = .ok bid d.data d.source ∧ s.owned.get bid = none ∧ d.packets = 1 ∧
      (step c f e s (.ordinary now b)).1 = { s with owned := s.owned.put bid .other }.spawnGc e bid := by
  simp only [step, receiveOrdinary] at h ⊢
  cases hc : checkOrdinary c e now b with
  | outdated => rw [hc] at h; cases h
  | failed => rw [hc] at h; cases h
  | ok bid data source =>
    rw [hc] at h
    simp only at h ⊢
    cases ho : s.owned.get bid with
    | some x => rw [ho] at h; cases h
    | none =>
      rw [ho] at h
      simp only [Option.some.injEq] at h
      subst h
      exact ⟨bid, rfl, ho, rfl, rfl⟩

/-- C45, first part: whatever is received in whatever state, an ordinary broadcast given to the
application was not older than the timeout; its source is the identity of the public key in it, and the
signature in it is one by this key over the content delivered, the date and (if the flags ask for it)
the source. The content is the received data or what it decompresses to. -/
theorem C45_authentic (e : Env) (s : State c f) (now : Nat) (b : Ordinary) (d : Delivery)
    (h : (step c f e s (.ordinary now b)).2.delivered = some d) :
    now ≤ b.date + e.timeout ∧
    (∃ k pub, b.src = .ed25519 k ∧ c.decodePub k = some pub ∧ d.source = Node.shortId c pub ∧
      b.signature.length = 64 ∧
      c.verify pub (ordinaryText c.sha (slot b d.source) d.data b.date) b.signature = true) ∧
    (d.data = b.data ∨ decompress e.z b.data = some d.data) := by
  obtain ⟨bid, h1, _⟩ := delivered_ordinary h
  obtain ⟨h2, h3, h4, _⟩ := check_ok h1
  exact ⟨h2, h3, h4⟩

/-- The signed text determines the content, the date and the source named, unless two different values
with the same hash are at hand. -/
theorem C45_text_binds (sha : Bytes → Bytes) (hsha : ∀ x, (sha x).length = 32) (src src' data data' : Bytes)
    (date date' : Nat) (hs : src.length = 32) (hs' : src'.length = 32) (hd : date < 2 ^ 32)
    (hd' : date' < 2 ^ 32) (h : ordinaryText sha src data date = ordinaryText sha src' data' date') :
    date = date' ∧ ((src = src' ∧ data = data') ∨
      (∃ x y, x ≠ y ∧ sha x = sha y ∧ ((x = data ∧ y = data') ∨
        (x = leBytes 4 0x51fd789a ++ (src ++ (sha data ++ leBytes 4 1)) ∧
         y = leBytes 4 0x51fd789a ++ (src' ++ (sha data' ++ leBytes 4 1)))))) := by
  unfold ordinaryText at h
  have h1 := List.append_cancel_left h
  obtain ⟨h2, h3⟩ := List.append_inj h1 (by rw [hsha, hsha])
  refine ⟨?_, ?_⟩
  · have e1 := congrArg ofLE h3
    rw [ofLE_leBytes_of_lt (by simpa using hd), ofLE_leBytes_of_lt (by simpa using hd')] at e1
    exact e1
  · by_cases hx : leBytes 4 0x51fd789a ++ (src ++ (sha data ++ leBytes 4 1)) =
        leBytes 4 0x51fd789a ++ (src' ++ (sha data' ++ leBytes 4 1))
    · have h4 := List.append_cancel_left hx
      obtain ⟨h5, h6⟩ := List.append_inj h4 (by rw [hs, hs'])
      have h7 := List.append_cancel_right h6
      by_cases hdata : data = data'
      · exact .inl ⟨h5, hdata⟩
      · exact .inr ⟨data, data', hdata, h7, .inl ⟨rfl, rfl⟩⟩
    · exact .inr ⟨_, _, hx, h2, .inr ⟨rfl, rfl⟩⟩

/-! ### The flags -/

/-- C45 as stated: changing the flags of an accepted broadcast makes it unacceptable. -/
def C45_flags_full : Prop := ∀ (c : Crypto) (e : Env) (now : Nat) (b : Ordinary) (flags : Nat)
  (bid data source bid' data' source' : Bytes),
  checkOrdinary c e now b = .ok bid data source →
  checkOrdinary c e now { b with flags := flags } = .ok bid' data' source' → flags = b.flags

/-- A broadcast for the toy primitives, signed by key 5, date 100, any sender. -/
def sampleOrdinary : Ordinary :=
  ⟨.ed25519 (leBytes 32 5), .empty, 1, [1], 100, leBytes 64 (5 + 256 * 40)⟩

/-- A log of one broadcast, a timeout of a minute. -/
def sampleEnv : Env := ⟨.release, ⟨fun b => b, some⟩, 60, 1⟩

/-- The code signs the constant `BROADCAST_FLAG_ANY_SENDER` in place of the flags: a relay can change
every bit of the flags but the lowest one. -/
theorem C45_flags_full_false : ¬ C45_flags_full := by
  intro h
  have := h Crypto.toy sampleEnv 100 sampleOrdinary 3 _ _ _ _ _ _
    (by rfl : checkOrdinary Crypto.toy sampleEnv 100 sampleOrdinary = .ok
      (Crypto.toy.sha (ordinaryText Crypto.toy.sha (List.replicate 32 0) [1] 100)) [1]
      (Node.shortId Crypto.toy (5 : UInt8))) rfl
  revert this
  decide

/-- Exactly what of the flags matters: the lowest bit. -/
theorem C45_flags_lowest_bit (e : Env) (now : Nat) (b : Ordinary) (flags : Nat)
    (h : flags % 2 = b.flags % 2) :
    checkOrdinary c e now { b with flags := flags } = checkOrdinary c e now b := by
  unfold checkOrdinary sourceMatters
  simp only [h]

/-! ### Once -/

/-- While `t` is not reached, the broadcast stays in the table. -/
structure Kept (bid : Bytes) (t : Nat) (v : View) : Prop where
  key : bid ∈ v.keys
  cl : bid ∉ v.cl
  counted : bid ∉ v.counted
  queue : bid ∉ v.queue
  timers : ∀ due, (bid, due) ∈ v.timers → t ≤ due

theorem mem_eraseIdx {α : Type} {l : List α} {i : Nat} {x : α} (h : x ∈ l.eraseIdx i) : x ∈ l :=
  (List.eraseIdx_sublist l i).subset h

theorem Kept.eff {e : Env} {bid : Bytes} {t : Nat} {v v' : View} (h : v.clock < t → Kept bid t v)
    (he : Eff e v v') : v'.clock < t → Kept bid t v' := by
  intro hc
  have hm : ∀ {l : List Bytes} {i : Nat} {x : Bytes}, l[i]? = some x → x ∈ l := fun h =>
    List.mem_of_getElem? h
  cases he with
  | same t' ht =>
    obtain ⟨h1, h2, h3, h4, h5⟩ := h (Nat.lt_of_le_of_lt ht hc)
    exact ⟨h1, h2, h3, h4, h5⟩
  | create b hb =>
    obtain ⟨h1, h2, h3, h4, h5⟩ := h hc
    refine ⟨List.mem_cons_of_mem _ h1, h2, h3, h4, ?_⟩
    intro due hd
    rcases List.mem_append.mp hd with hd | hd
    · exact h5 due hd
    · simp only [List.mem_singleton, Prod.mk.injEq] at hd
      exact absurd (hd.1 ▸ h1) hb
  | createFec b hb =>
    obtain ⟨h1, h2, h3, h4, h5⟩ := h hc
    refine ⟨List.mem_cons_of_mem _ h1, ?_, h3, h4, h5⟩
    intro hm'
    rcases List.mem_append.mp hm' with hd | hd
    · exact h2 hd
    · simp only [List.mem_singleton] at hd
      exact hb (hd ▸ h1)
  | cleanup i b hb =>
    obtain ⟨h1, h2, h3, h4, h5⟩ := h hc
    refine ⟨h1, fun hx => h2 (mem_eraseIdx hx), h3, h4, ?_⟩
    intro due hd
    rcases List.mem_append.mp hd with hd | hd
    · exact h5 due hd
    · simp only [List.mem_singleton, Prod.mk.injEq] at hd
      exact absurd (hm hb) (hd.1 ▸ h2)
  | expire i b due hb hd =>
    obtain ⟨h1, h2, h3, h4, h5⟩ := h hc
    refine ⟨h1, h2, ?_, h4, fun due hx => h5 due (mem_eraseIdx hx)⟩
    intro hx
    rcases List.mem_append.mp hx with hx | hx
    · exact h3 hx
    · simp only [List.mem_singleton] at hx
      have := h5 due (hx ▸ List.mem_of_getElem? hb)
      simp only at hc
      omega
  | push i b hb =>
    obtain ⟨h1, h2, h3, h4, h5⟩ := h hc
    refine ⟨h1, h2, fun hx => h3 (mem_eraseIdx hx), ?_, h5⟩
    intro hx
    rcases List.mem_append.mp hx with hx | hx
    · exact h4 hx
    · simp only [List.mem_singleton] at hx
      exact h3 (hx ▸ hm hb)
  | check _ _ => obtain ⟨h1, h2, h3, h4, h5⟩ := h hc; exact ⟨h1, h2, h3, h4, h5⟩
  | popNone _ _ => obtain ⟨h1, h2, h3, h4, h5⟩ := h hc; exact ⟨h1, h2, h3, h4, h5⟩
  | pop b rest _ hq =>
    obtain ⟨h1, h2, h3, h4, h5⟩ := h hc
    rw [hq] at h4
    simp only [List.mem_cons, not_or] at h4
    exact ⟨List.mem_filter.mpr ⟨h1, by simpa using h4.1⟩, h2, h3, h4.2, h5⟩
  | sub _ => obtain ⟨h1, h2, h3, h4, h5⟩ := h hc; exact ⟨h1, h2, h3, h4, h5⟩

/-- A broadcast just entered is kept for the timeout. -/
theorem kept_new {e : Env} {s : State c f} (hT : TInv (view s)) {bid : Bytes} (h : s.owned.get bid = none) :
    Kept bid (s.clock + 1000 * e.timeout)
      (view ({ s with owned := s.owned.put bid .other }.spawnGc e bid)) := by
  have hk : bid ∉ (view s).keys := AMap.get_eq_none_iff.mp h
  have ht : bid ∉ (view s).tokens := fun hc => hk (hT.perm.subset hc)
  simp only [View.tokens, view, List.mem_append, not_or] at ht
  refine ⟨?_, ht.1, ht.2.2.1, ht.2.2.2, ?_⟩
  · simp [view, State.spawnGc, keys_put_new h]
  · intro due hd
    simp only [view, State.spawnGc, List.mem_append, List.mem_singleton, Prod.mk.injEq] at hd
    rcases hd with hd | hd
    · exact absurd (List.mem_map.mpr ⟨_, hd, rfl⟩) ht.2.1
    · omega

/-- Once a broadcast has been entered at time `t`, it is only delivered after the timeout. -/
theorem kept_deliveries (e : Env) (bid : Bytes) (t : Nat) (as : List Action) : ∀ {s : State c f},
    (s.clock < t → Kept bid t (view s)) → Synced e s as →
    ∀ y ∈ ordinaryDeliveries e s as,
      bid = c.sha (ordinaryText c.sha (slot y.2.1 y.2.2.source) y.2.2.data y.2.1.date) →
      t / 1000 ≤ y.1 ∧ y.1 ≤ y.2.1.date + e.timeout := by
  induction as with
  | nil => intro s _ _ y hy; exact absurd hy List.not_mem_nil
  | cons a as ih =>
    intro s hk hsync y hy hb
    simp only [ordinaryDeliveries] at hy
    rcases List.mem_append.mp hy with hy | hy
    · cases a with
      | ordinary now b =>
        simp only [ordinaryDelivery, Option.mem_toList, Option.map_eq_some_iff] at hy
        obtain ⟨d, hd, rfl⟩ := hy
        obtain ⟨bid', h1, h2, _⟩ := delivered_ordinary hd
        obtain ⟨h3, _, _, h4⟩ := check_ok h1
        have hbb : bid' = bid := h4.trans hb.symm
        subst hbb
        refine ⟨?_, h3⟩
        have hnow := hsync.1 now b rfl
        have hge : t ≤ s.clock := by
          rcases Nat.lt_or_ge s.clock t with hlt | hge
          · exact absurd (hk hlt).key (AMap.get_eq_none_iff.mp h2)
          · exact hge
        show t / 1000 ≤ now
        rw [hnow]
        exact Nat.div_le_div_right hge
      | _ => exact absurd hy List.not_mem_nil
    · exact ih (Kept.eff hk (step_eff e s a)) hsync.2 y hy hb

/-- C45 as stated, last part: no broadcast is delivered twice, with any clock. -/
def C45_once_full : Prop := ∀ (c : Crypto) (f : Fec) (e : Env) (as : List Action),
  Synced e (State.init c f) as →
  (ordinaryDeliveries e (State.init c f) as).Pairwise fun x y => ¬ Same x y

/-- A broadcast made and received at second 100, forgotten at second 160 because another one finished
after it, and received once more in the same second, when it is still not outdated. -/
def boundarySchedule : List Action :=
  [.tick 100000, .ordinary 100 sampleOrdinary, .own [7], .tick 60000, .expire 0, .push 0, .expire 0,
   .push 0, .gcCheck, .gcPop, .gcSub, .ordinary 160 sampleOrdinary]

theorem C45_once_full_false : ¬ C45_once_full := by
  intro h
  have h1 := h Crypto.toy Fec.toy sampleEnv boundarySchedule (by
    simp only [boundarySchedule, Synced]
    refine ⟨?_, ?_, ?_, ?_, ?_, ?_, ?_, ?_, ?_, ?_, ?_, ?_, trivial⟩ <;> intro now b hb <;> cases hb <;> decide +kernel)
  have h2 : ordinaryDeliveries sampleEnv (State.init Crypto.toy Fec.toy) boundarySchedule =
      [(100, sampleOrdinary, ⟨1, [1], Node.shortId Crypto.toy (5 : UInt8)⟩),
       (160, sampleOrdinary, ⟨1, [1], Node.shortId Crypto.toy (5 : UInt8)⟩)] := by decide +kernel
  rw [h2] at h1
  exact (List.pairwise_cons.mp h1).1 _ (List.mem_singleton.mpr rfl) ⟨rfl, rfl, rfl⟩

/-- When a broadcast can be delivered a second time, for every schedule with the wall clock going with
the timers: only one whose date was not before the second of its first delivery. -/
theorem C45_redelivered_only (e : Env) (as : List Action) (hsync : Synced e (State.init c f) as) :
    (ordinaryDeliveries e (State.init c f) as).Pairwise fun x y => Same x y → x.1 ≤ x.2.1.date := by
  suffices h : ∀ (as : List Action) (s : State c f), TInv (view s) → Synced e s as →
      (ordinaryDeliveries e s as).Pairwise fun x y => Same x y → x.1 ≤ x.2.1.date from
    h as _ TInv.init hsync
  intro as
  induction as with
  | nil => intro s _ _; exact List.Pairwise.nil
  | cons a as ih =>
    intro s hT hsync
    have htail := ih _ (hT.eff (step_eff e s a)) hsync.2
    simp only [ordinaryDeliveries]
    cases a with
    | ordinary now b =>
      simp only [ordinaryDelivery]
      cases hd : (step c f e s (.ordinary now b)).2.delivered with
      | none => exact htail
      | some d =>
        obtain ⟨bid, h1, h2, _, h4⟩ := delivered_ordinary hd
        obtain ⟨_, _, _, h5⟩ := check_ok h1
        refine List.pairwise_cons.mpr ⟨?_, htail⟩
        intro y hy hsame
        have hk : Kept bid (s.clock + 1000 * e.timeout) (view (step c f e s (.ordinary now b)).1) := by
          rw [h4]; exact kept_new hT h2
        obtain ⟨e1, e2, e3⟩ := hsame
        have hb : bid = c.sha (ordinaryText c.sha (slot y.2.1 y.2.2.source) y.2.2.data y.2.1.date) := by
          rw [h5]
          simp only at e1 e2 e3
          rw [e1, e2, e3]
        obtain ⟨h6, h7⟩ := kept_deliveries e bid _ as (fun _ => hk) hsync.2 y hy hb
        have hnow := hsync.1 now b rfl
        simp only at e2 ⊢
        rw [← e2] at h7
        have : (s.clock + 1000 * e.timeout) / 1000 = s.clock / 1000 + e.timeout := by omega
        rw [this, ← hnow] at h6
        omega
    | _ => exact htail

/-- C45, last part, as far as it holds: with the wall clock going with the timers and no broadcast
received in or before the second of its date, none is delivered twice. -/
theorem C45_once_partial (e : Env) (as : List Action) (hsync : Synced e (State.init c f) as)
    (hdate : ∀ x ∈ ordinaryDeliveries e (State.init c f) as, x.2.1.date < x.1) :
    (ordinaryDeliveries e (State.init c f) as).Pairwise fun x y => ¬ Same x y := by
  refine List.Pairwise.imp_of_mem ?_ (C45_redelivered_only e as hsync)
  intro x y hx _ h hs
  have := h hs
  have := hdate x hx
  omega

/-- Received twice, delivered once. -/
example : ordinaryDeliveries sampleEnv (State.init Crypto.toy Fec.toy)
      [.tick 101000, .ordinary 101 sampleOrdinary, .ordinary 101 sampleOrdinary] =
    [(101, sampleOrdinary, ⟨1, [1], Node.shortId Crypto.toy (5 : UInt8)⟩)] := by decide +kernel

/-- A broadcast sent by this node is not delivered to its own application before the timeout. -/
theorem C45_own (e : Env) (as as' : List Action) (bid : Bytes)
    (hnew : (run c f e (State.init c f) as).owned.get bid = none)
    (hsync : Synced e (step c f e (run c f e (State.init c f) as) (.own bid)).1 as') :
    ∀ y ∈ ordinaryDeliveries e (step c f e (run c f e (State.init c f) as) (.own bid)).1 as',
      bid = c.sha (ordinaryText c.sha (slot y.2.1 y.2.2.source) y.2.2.data y.2.1.date) →
      (run c f e (State.init c f) as).clock / 1000 + e.timeout ≤ y.1 := by
  intro y hy hb
  have hT := TInv.run e as (TInv.init (c := c) (f := f))
  generalize run c f e (State.init c f) as = s at *
  have hk : Kept bid (s.clock + 1000 * e.timeout) (view (step c f e s (.own bid)).1) := by
    simp only [step, createOwn, hnew]
    exact kept_new hT hnew
  have := (kept_deliveries e bid _ as' (fun _ => hk) hsync y hy hb).1
  have h2 : (s.clock + 1000 * e.timeout) / 1000 = s.clock / 1000 + e.timeout := by omega
  omega

-- C45_authentic
example := C45_authentic sampleEnv (State.init Crypto.toy Fec.toy) 101 sampleOrdinary
  ⟨1, [1], Node.shortId Crypto.toy (5 : UInt8)⟩ (by decide +kernel)

-- C45_text_binds: with a hash that collides, two texts can be equal though the data differ
example := C45_text_binds (fun _ => List.replicate 32 0) (fun _ => by simp) (List.replicate 32 1) (List.replicate 32 1)
  [1] [2] 7 7 (by simp) (by simp) (by decide) (by decide) rfl

-- C45_flags_lowest_bit
example := C45_flags_lowest_bit (c := Crypto.toy) sampleEnv 101 sampleOrdinary 3 rfl

theorem boundary_synced : Synced sampleEnv (State.init Crypto.toy Fec.toy) boundarySchedule := by
  simp only [boundarySchedule, Synced]
  refine ⟨?_, ?_, ?_, ?_, ?_, ?_, ?_, ?_, ?_, ?_, ?_, ?_, trivial⟩ <;> intro now b hb <;> cases hb <;> decide +kernel

-- C45_redelivered_only: the schedule with two deliveries of the same broadcast
example := C45_redelivered_only sampleEnv boundarySchedule boundary_synced

-- C45_own: a broadcast started at second 100 and received by its own node at second 100
example := C45_own (c := Crypto.toy) (f := Fec.toy) sampleEnv [.tick 100000] [.ordinary 100 sampleOrdinary]
  (Crypto.toy.sha (ordinaryText Crypto.toy.sha (List.replicate 32 0) [1] 100)) rfl
  (by simp only [Synced]; refine ⟨?_, trivial⟩; intro now b hb; cases hb; decide +kernel)

end Verif.Overlay
