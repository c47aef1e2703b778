import Verif.Proofs.FecDelivery
import Verif.Proofs.Gossip
import Verif.Props.FecSend

/-!
# Lemmas for C123: a member that receives an FEC broadcast passes every symbol on
-/
namespace Verif.Overlay
open Verif.AdnlProto Verif.Rldp

variable {c : Crypto} {f : Fec}

/-- The broadcast will not be forgotten before `T`. -/
structure Late (T : Nat) (bid : Bytes) (s : State c f) : Prop where
  timers : ∀ d, (bid, d) ∈ s.timers → T ≤ d
  counted : bid ∉ s.counted
  queue : bid ∉ s.queue

/-- The broadcast is known to the member, `got` are the numbers that came in date: they are in the packet history,
and the channel is open or the transfer is marked. -/
structure Held (source bid : Bytes) (T : Nat) (s : State c f) (got : List Nat) (i : Nat) (t : Transfer c f) : Prop where
  entry : s.owned.get bid = some (.incoming i)
  tr : s.transfers[i]? = some t
  tbid : t.bid = bid
  source : t.source = source
  marked : t.phase = .ended → t.completed = true
  hist : t.hist = PacketsHistory.run PacketsHistory.forRecv got
  only : ∀ (j : Nat) (u : Transfer c f), s.transfers[j]? = some u → u.bid = bid → j = i
  late : Late T bid s

theorem Held.same {source bid : Bytes} {T : Nat} {s s' : State c f} {got : List Nat} {i : Nat} {t : Transfer c f}
    (h : Held source bid T s got i t) (h1 : s'.owned.get bid = s.owned.get bid) (h2 : s'.transfers = s.transfers)
    (h3 : Late T bid s') : Held source bid T s' got i t :=
  ⟨h1.trans h.entry, by rw [h2]; exact h.tr, h.tbid, h.source, h.marked, h.hist, by rw [h2]; exact h.only, h3⟩

theorem Held.set {source bid : Bytes} {T : Nat} {s : State c f} {got got' : List Nat} {i : Nat} {t : Transfer c f}
    (h : Held source bid T s got i t) (t' : Transfer c f) (h1 : t'.bid = t.bid) (h2 : t'.source = t.source)
    (h3 : t'.phase = .ended → t'.completed = true)
    (h4 : t'.hist = PacketsHistory.run PacketsHistory.forRecv got') :
    Held source bid T { s with transfers := s.transfers.set i t' } got' i t' := by
  have hi : i < s.transfers.length := (List.getElem?_eq_some_iff.mp h.tr).1
  refine ⟨h.entry, by simp [hi], h1.trans h.tbid, h2.trans h.source, h3, h4, ?_, ⟨h.late.timers, h.late.counted, h.late.queue⟩⟩
  intro j u hu hub
  by_cases hij : i = j
  · exact hij.symm
  · simp only [List.getElem?_set, hij, if_false] at hu
    exact h.only j u hu hub

theorem Held.setOther {source bid : Bytes} {T : Nat} {s : State c f} {got : List Nat} {i j : Nat}
    {t u u' : Transfer c f} (h : Held source bid T s got i t) (hu : s.transfers[j]? = some u) (hub : u.bid ≠ bid)
    (hb : u'.bid = u.bid) : Held source bid T { s with transfers := s.transfers.set j u' } got i t := by
  have hj : j < s.transfers.length := (List.getElem?_eq_some_iff.mp hu).1
  have hne : j ≠ i := by
    rintro rfl
    have := h.tr
    rw [hu] at this
    cases this
    exact hub h.tbid
  refine ⟨h.entry, ?_, h.tbid, h.source, h.marked, h.hist, ?_, ⟨h.late.timers, h.late.counted, h.late.queue⟩⟩
  · simp only [List.getElem?_set, hne, if_false]; exact h.tr
  · intro k v hv hvb
    by_cases hjk : j = k
    · subst hjk
      simp only [List.getElem?_set, if_true, hj] at hv
      cases hv
      exact absurd (hb.symm.trans hvb) hub
    · simp only [List.getElem?_set, hjk, if_false] at hv
      exact h.only k v hv hvb

theorem Late.spawn {T : Nat} {bid x : Bytes} {s : State c f} {e : Env} (h : Late T bid s)
    (hx : x = bid → T ≤ s.clock + 1000 * e.timeout) : Late T bid (s.spawnGc e x) := by
  refine ⟨?_, h.counted, h.queue⟩
  intro d hd
  simp only [State.spawnGc, List.mem_append, List.mem_singleton, Prod.mk.injEq] at hd
  rcases hd with hd | ⟨h1, rfl⟩
  · exact h.timers d hd
  · exact hx h1.symm

theorem Held.new {e : Env} {source bid : Bytes} {T : Nat} {s : State c f} {got : List Nat} {i : Nat} {t : Transfer c f}
    (h : Held source bid T s got i t) (b : FecPart) (src : Bytes) (hb : b.dataHash ≠ bid) :
    Held source bid T (newTransfer c f e s b src) got i t := by
  refine ⟨(AMap.get_put_ne _ _ (Ne.symm hb)).trans h.entry, ?_, h.tbid, h.source, h.marked, h.hist, ?_,
    ⟨h.late.timers, h.late.counted, h.late.queue⟩⟩
  · simp only [newTransfer]
    rw [List.getElem?_append_left (List.getElem?_eq_some_iff.mp h.tr).1]
    exact h.tr
  · intro j u hu hub
    simp only [newTransfer] at hu
    rcases Nat.lt_or_ge j s.transfers.length with hj | hj
    · rw [List.getElem?_append_left hj] at hu; exact h.only j u hu hub
    · rw [List.getElem?_append_right hj] at hu
      have := List.mem_of_getElem? hu
      simp only [List.mem_singleton] at this
      subst this
      exact absurd hub hb

theorem Held.feedOther {source bid : Bytes} {T : Nat} {s : State c f} {got : List Nat} {i j : Nat} {t u : Transfer c f}
    (h : Held source bid T s got i t) (hu : s.transfers[j]? = some u) (hub : u.bid ≠ bid) (pub : c.Pub) (src : Bytes)
    (b : FecPart) : Held source bid T (Overlay.feed c f s j u pub src b).1 got i t := by
  unfold Overlay.feed
  simp only
  split
  · exact h.setOther hu hub rfl
  · split
    · exact h.setOther hu hub rfl
    · split
      · exact h.setOther hu hub rfl
      · split
        · exact h.setOther hu hub rfl
        · exact h.setOther hu hub rfl

/-- A symbol of the broadcast arrives: it is noted, and passed on if its number is new. -/
theorem Held.feed {source bid : Bytes} {T : Nat} {s : State c f} {got : List Nat} {i : Nat} {t : Transfer c f}
    (h : Held source bid T s got i t) (pub : c.Pub) (b : FecPart) :
    (∃ t', Held source bid T (Overlay.feed c f s i t pub source b).1 (got ++ [b.seqno]) i t') ∧
    (b.seqno ∉ got → (Overlay.feed c f s i t pub source b).2.forwarded = true) := by
  have hrun : PacketsHistory.run PacketsHistory.forRecv (got ++ [b.seqno]) =
      (PacketsHistory.deliver t.hist b.seqno).1 := by
    rw [PacketsHistory.run_snoc, h.hist]
  unfold Overlay.feed
  simp only
  rw [if_neg (by rw [h.source]; exact fun hne => hne rfl)]
  cases hd : PacketsHistory.deliver t.hist b.seqno with
  | mk hh ok =>
    rw [hd] at hrun
    cases ok with
    | false =>
      refine ⟨⟨_, h.set _ rfl rfl h.marked hrun.symm⟩, fun hn => ?_⟩
      have := Props.C02_fresh_number_accepted got b.seqno hn
      rw [← h.hist, hd] at this
      cases this
    | true =>
      simp only
      split
      · exact ⟨⟨_, h.set _ rfl rfl h.marked hrun.symm⟩, fun _ => rfl⟩
      · rename_i hcomp
        split
        · rename_i hend
          exact absurd (h.marked hend) hcomp
        · exact ⟨⟨_, h.set _ rfl rfl h.marked hrun.symm⟩, fun _ => rfl⟩

/-- Only packets of the source go by the name of the broadcast. -/
def FromSource (c : Crypto) (e : Env) (pub : c.Pub) (bid : Bytes) : Action → Prop
  | .ordinary now b => ∀ d src, checkOrdinary c e now b ≠ .ok bid d src
  | .fec _ b => b.dataHash = bid → Receiver.fullId c b.src = some pub ∧ b.signature.length = 64
  | .own x => x ≠ bid
  | _ => True

/-- Known or not. -/
def Knows (source bid : Bytes) (T : Nat) (s : State c f) (got : List Nat) : Prop :=
  (Unheard bid s ∧ got = []) ∨ (got ≠ [] ∧ ∃ i t, Held source bid T s got i t)

theorem knows_step {e : Env} {pub : c.Pub} {bid : Bytes} {t0 : Nat} {s : State c f} {got : List Nat} (hF : FInv s)
    (h : Knows (Node.shortId c pub) bid (t0 + 1000 * e.timeout) s got) (a : Action) (ha : FromSource c e pub bid a)
    (ht0 : t0 ≤ s.clock) (hclock : s.clock < t0 + 1000 * e.timeout) :
    Knows (Node.shortId c pub) bid (t0 + 1000 * e.timeout) (step c f e s a).1 (got ++ (arrival e bid a).toList) ∧
    (∀ n, arrival e bid a = some n → n ∉ got → (step c f e s a).2.forwarded = true) := by
  -- a symbol of the broadcast
  have hfec : ∀ now b, a = .fec now b → b.dataHash = bid → isOutdated e b.date now = some false →
      Knows (Node.shortId c pub) bid (t0 + 1000 * e.timeout) (step c f e s a).1 (got ++ (arrival e bid a).toList) ∧
      (∀ n, arrival e bid a = some n → n ∉ got → (step c f e s a).2.forwarded = true) := by
    rintro now b rfl hb ho
    obtain ⟨hfull, hsig⟩ := ha hb
    have harr : arrival e bid (.fec now b) = some b.seqno := by simp [arrival, hb, ho]
    rw [harr]
    simp only [Option.toList_some, step, receiveFec, ho, hfull]
    rw [if_neg (by simp [hsig]), hb]
    rcases h with ⟨h, rfl⟩ | ⟨hne0, i, t, h⟩
    · rw [h.none]
      simp only [Option.isNone_none, if_true]
      have hg : Held (Node.shortId c pub) bid (t0 + 1000 * e.timeout) (newTransfer c f e s b (Node.shortId c pub)) []
          s.transfers.length ⟨bid, Node.shortId c pub, PacketsHistory.forRecv, [], false, s.clock, 0,
            f.new b.fec, 0, .running⟩ := by
        refine ⟨by simp [newTransfer, hb], ?_, rfl, rfl, (by intro hx; cases hx), rfl, ?_,
          ⟨fun d hd => absurd hd (h.off.1 d), h.off.2.1, h.off.2.2⟩⟩
        · simp only [newTransfer]
          rw [List.getElem?_append_right (Nat.le_refl _)]
          simp [hb]
        · intro j u hu hub
          simp only [newTransfer] at hu
          rcases Nat.lt_or_ge j s.transfers.length with hj | hj
          · rw [List.getElem?_append_left hj] at hu
            exact absurd hub (h.no j u hu)
          · rw [List.getElem?_append_right hj] at hu
            have := (List.getElem?_eq_some_iff.mp hu).1
            simp only [List.length_singleton] at this
            omega
      rw [hg.entry]
      simp only
      rw [hg.tr]
      obtain ⟨⟨t', h1⟩, h2⟩ := hg.feed pub b
      exact ⟨.inr ⟨by simp, _, t', h1⟩, fun n hn => by cases hn; exact h2⟩
    · rw [h.entry]
      simp only [Option.isNone_some, Bool.false_eq_true, if_false]
      rw [h.entry]
      simp only
      rw [h.tr]
      obtain ⟨⟨t', h1⟩, h2⟩ := h.feed pub b
      exact ⟨.inr ⟨by simp, _, t', h1⟩, fun n hn => by cases hn; exact h2⟩
  by_cases hx : ∃ now b, a = .fec now b ∧ b.dataHash = bid ∧ isOutdated e b.date now = some false
  · obtain ⟨now, b, h1, h2, h3⟩ := hx
    exact hfec now b h1 h2 h3
  have harr : arrival e bid a = none := by
    cases a with
    | fec now b =>
      simp only [arrival]
      rw [if_neg]
      rintro ⟨h1, h2⟩
      exact hx ⟨now, b, rfl, h1, h2⟩
    | _ => rfl
  rw [harr]
  simp only [Option.toList_none, List.append_nil]
  refine ⟨?_, fun n hn => by cases hn⟩
  rcases h with ⟨h, hg⟩ | ⟨hne0, i, t, h⟩
  · by_cases hb : ∃ now b, a = .fec now b ∧ b.dataHash = bid
    · obtain ⟨now, b, rfl, hb⟩ := hb
      have : (step c f e s (.fec now b)).1 = s := by
        simp only [step, receiveFec]
        cases ho : isOutdated e b.date now with
        | none => rfl
        | some out =>
          cases out with
          | true => rfl
          | false => exact absurd ⟨now, b, rfl, hb, ho⟩ hx
      rw [this]
      exact .inl ⟨h, hg⟩
    · refine .inl ⟨h.apart (apart_step hF h.off a ?_), hg⟩
      cases a with
      | ordinary now b => exact ha
      | fec now b => exact fun hd => hb ⟨now, b, rfl, hd⟩
      | own x => exact ha
      | task j => exact fun u hu => h.no j u hu
      | mark j => exact fun u hu => h.no j u hu
      | cleanup j => exact fun d hd => h.clean d (List.mem_of_getElem? hd)
      | _ => trivial
  · refine .inr ⟨hne0, ?_⟩
    cases a with
    | tick ms => exact ⟨i, t, h.same rfl rfl ⟨h.late.timers, h.late.counted, h.late.queue⟩⟩
    | ordinary now b =>
      simp only [step, receiveOrdinary]
      cases hc : checkOrdinary c e now b with
      | outdated => exact ⟨i, t, h⟩
      | failed => exact ⟨i, t, h⟩
      | ok x d src =>
        simp only
        have hne : x ≠ bid := by rintro rfl; exact ha d src hc
        split
        · exact ⟨i, t, h⟩
        · refine ⟨i, t, h.same (AMap.get_put_ne _ _ (Ne.symm hne)) rfl ?_⟩
          exact Late.spawn ⟨h.late.timers, h.late.counted, h.late.queue⟩ (fun hh => absurd hh hne)
    | own x =>
      simp only [step, createOwn]
      split
      · exact ⟨i, t, h⟩
      · refine ⟨i, t, h.same (AMap.get_put_ne _ _ (Ne.symm ha)) rfl ?_⟩
        exact Late.spawn ⟨h.late.timers, h.late.counted, h.late.queue⟩ (fun hh => absurd hh ha)
    | fec now b =>
      simp only [step, receiveFec]
      cases ho : isOutdated e b.date now with
      | none => exact ⟨i, t, h⟩
      | some out =>
        cases out with
        | true => exact ⟨i, t, h⟩
        | false =>
          have hne : b.dataHash ≠ bid := fun hb => hx ⟨now, b, rfl, hb, ho⟩
          simp only
          split
          · exact ⟨i, t, h⟩
          · rename_i pub' _
            split
            · exact ⟨i, t, h⟩
            · have hs : FInv (if (s.owned.get b.dataHash).isNone = true then
                    newTransfer c f e s b (Node.shortId c pub') else s) ∧
                  Held (Node.shortId c pub) bid (t0 + 1000 * e.timeout) (if (s.owned.get b.dataHash).isNone = true then
                    newTransfer c f e s b (Node.shortId c pub') else s) got i t := by
                split
                · exact ⟨newTransfer_inv hF b _, h.new b _ hne⟩
                · exact ⟨hF, h⟩
              generalize (if (s.owned.get b.dataHash).isNone = true then
                    newTransfer c f e s b (Node.shortId c pub') else s) = s' at hs ⊢
              split
              · rename_i j hj
                obtain ⟨u, hu, hub⟩ := hs.1.entry _ _ hj
                rw [hu]
                exact ⟨i, t, hs.2.feedOther hu (by rw [hub]; exact hne) pub' _ b⟩
              · exact ⟨i, t, hs.2⟩
    | task j =>
      simp only [step, taskStep]
      cases hu : s.transfers[j]? with
      | none => exact ⟨i, t, h⟩
      | some u =>
        simp only
        split
        · exact ⟨i, t, h⟩
        · rename_i hph
          have hrun : u.phase = .running := by
            by_contra hne; exact hph hne
          by_cases hub : u.bid = bid
          · obtain rfl := h.only j u hu hub
            have := h.tr
            rw [hu] at this
            cases this
            split
            · split
              · exact ⟨j, t, h⟩
              · exact ⟨_, _, h.set _ rfl rfl (by intro hx; cases hx) h.hist⟩
            · split
              · exact ⟨_, _, h.set _ rfl rfl (by intro hx; cases hx) h.hist⟩
              · refine ⟨_, _, h.set _ rfl rfl (fun hx => ?_) h.hist⟩
                simp only [hrun] at hx
                cases hx
              · exact ⟨_, _, h.set _ rfl rfl (by intro hx; cases hx) h.hist⟩
          · split
            · split
              · exact ⟨i, t, h⟩
              · exact ⟨i, t, h.setOther hu hub rfl⟩
            · split
              · exact ⟨i, t, h.setOther hu hub rfl⟩
              · exact ⟨i, t, h.setOther hu hub rfl⟩
              · exact ⟨i, t, h.setOther hu hub rfl⟩
    | mark j =>
      simp only [step, markStep]
      cases hu : s.transfers[j]? with
      | none => exact ⟨i, t, h⟩
      | some u =>
        simp only
        split
        · exact ⟨i, t, h⟩
        · have h2 : FInv { s with transfers := s.transfers.set j { u with phase := .ended } } :=
            hF.setT (t' := { u with phase := .ended }) hu rfl
              ((hF.trs u (List.mem_of_getElem? hu)).congr rfl rfl rfl rfl)
          by_cases hub : u.bid = bid
          · obtain rfl := h.only j u hu hub
            have := h.tr
            rw [hu] at this
            cases this
            have hj : j < s.transfers.length := (List.getElem?_eq_some_iff.mp hu).1
            rw [hub, h.entry]
            simp only [List.getElem?_set, if_true, hj]
            rw [List.set_set]
            exact ⟨_, _, h.set { t with bid := bid, phase := .ended, completed := true } hub.symm rfl (fun _ => rfl) h.hist⟩
          · have h1 := h.setOther (u' := { u with phase := .ended }) hu hub rfl
            split
            · rename_i k hk
              split
              · rename_i v hv
                obtain ⟨v', hv', hvb⟩ := h2.entry _ _ hk
                rw [hv] at hv'
                cases hv'
                exact ⟨i, t, h1.setOther (u' := { v with completed := true }) hv (by rw [hvb]; exact hub) rfl⟩
              · exact ⟨i, t, h1⟩
            · exact ⟨i, t, h1⟩
    | cleanup j =>
      simp only [step, cleanupStep]
      split
      · exact ⟨i, t, h⟩
      · rename_i x due _
        split
        · exact ⟨i, t, h⟩
        · split
          · exact ⟨i, t, h.same rfl rfl ⟨h.late.timers, h.late.counted, h.late.queue⟩⟩
          · refine ⟨i, t, h.same rfl rfl ?_⟩
            refine Late.spawn ⟨h.late.timers, h.late.counted, h.late.queue⟩ (fun _ => ?_)
            simp only
            omega
    | expire j =>
      simp only [step]
      split
      · exact ⟨i, t, h⟩
      · rename_i x due hj
        split
        · exact ⟨i, t, h⟩
        · refine ⟨i, t, h.same rfl rfl ⟨fun d hd => h.late.timers d (mem_eraseIdx hd), ?_, h.late.queue⟩⟩
          intro hd
          rcases List.mem_append.mp hd with hd | hd
          · exact h.late.counted hd
          · simp only [List.mem_singleton] at hd
            have := h.late.timers due (hd ▸ List.mem_of_getElem? hj)
            omega
    | push j =>
      simp only [step]
      split
      · exact ⟨i, t, h⟩
      · rename_i x hj
        refine ⟨i, t, h.same rfl rfl ⟨h.late.timers, fun hd => h.late.counted (mem_eraseIdx hd), ?_⟩⟩
        intro hd
        rcases List.mem_append.mp hd with hd | hd
        · exact h.late.queue hd
        · simp only [List.mem_singleton] at hd
          exact h.late.counted (hd ▸ List.mem_of_getElem? hj)
    | gcCheck =>
      simp only [step]
      split
      · exact ⟨i, t, h.same rfl rfl ⟨h.late.timers, h.late.counted, h.late.queue⟩⟩
      · exact ⟨i, t, h⟩
    | gcPop =>
      simp only [step]
      split
      · split
        · exact ⟨i, t, h.same rfl rfl ⟨h.late.timers, h.late.counted, h.late.queue⟩⟩
        · rename_i x rest hq
          have h3 := h.late.queue
          rw [hq] at h3
          simp only [List.mem_cons, not_or] at h3
          refine ⟨i, t, h.same ?_ rfl ⟨h.late.timers, h.late.counted, h3.2⟩⟩
          simp only [AMap.get_erase]
          rw [if_neg]
          exact h3.1
      · exact ⟨i, t, h⟩
    | gcSub =>
      simp only [step]
      split
      · exact ⟨i, t, h.same rfl rfl ⟨h.late.timers, h.late.counted, h.late.queue⟩⟩
      · exact ⟨i, t, h⟩

theorem knows_run {e : Env} {pub : c.Pub} {bid : Bytes} {t0 : Nat} (as : List Action) : ∀ {s : State c f}
    {got : List Nat}, FInv s → Knows (Node.shortId c pub) bid (t0 + 1000 * e.timeout) s got →
    (∀ a ∈ as, FromSource c e pub bid a) → t0 ≤ s.clock → (run c f e s as).clock < t0 + 1000 * e.timeout →
    Knows (Node.shortId c pub) bid (t0 + 1000 * e.timeout) (run c f e s as) (got ++ as.filterMap (arrival e bid)) := by
  induction as with
  | nil => intro s got _ h _ _ _; simpa [run] using h
  | cons a as ih =>
    intro s got hF h ha ht0 hclock
    have hlt : s.clock < t0 + 1000 * e.timeout :=
      Nat.lt_of_le_of_lt (Nat.le_trans (clock_step e s a) (clock_run e as _)) hclock
    have h1 := (knows_step hF h a (ha a List.mem_cons_self) ht0 hlt).1
    have h2 := ih (hF.step a) h1 (fun b hb => ha b (List.mem_cons_of_mem _ hb))
      (Nat.le_trans ht0 (clock_step e s a)) hclock
    simp only [run]
    cases hx : arrival e bid a with
    | none => rw [hx] at h2; rw [List.filterMap_cons_none hx]; simpa using h2
    | some n => rw [hx] at h2; rw [List.filterMap_cons_some hx]; simpa using h2

theorem Unheard.notIn {bid : Bytes} {s : State c f} (h : Unheard bid s) : bid ∉ s.owned.keys :=
  AMap.get_eq_none_iff.mp h.none

/-- The broadcast is not forgotten. -/
theorem knows_kept {e : Env} {pub : c.Pub} {bid : Bytes} {t0 : Nat} (as : List Action) : ∀ {s : State c f}
    {got : List Nat}, FInv s → Knows (Node.shortId c pub) bid (t0 + 1000 * e.timeout) s got →
    (∀ a ∈ as, FromSource c e pub bid a) → t0 ≤ s.clock → (run c f e s as).clock < t0 + 1000 * e.timeout →
    bid ∉ allForgotten e s as := by
  induction as with
  | nil => intro s got _ _ _ _ _; exact List.not_mem_nil
  | cons a as ih =>
    intro s got hF h ha ht0 hclock
    have hlt : s.clock < t0 + 1000 * e.timeout :=
      Nat.lt_of_le_of_lt (Nat.le_trans (clock_step e s a) (clock_run e as _)) hclock
    have h1 := (knows_step hF h a (ha a List.mem_cons_self) ht0 hlt).1
    have h2 := ih (hF.step a) h1 (fun b hb => ha b (List.mem_cons_of_mem _ hb))
      (Nat.le_trans ht0 (clock_step e s a)) hclock
    simp only [allForgotten, List.mem_append, not_or]
    refine ⟨?_, h2⟩
    intro hm
    obtain ⟨hin, hout⟩ := List.mem_filter.mp hm
    rcases h with ⟨h, _⟩ | ⟨hne, _, _, _⟩
    · exact h.notIn hin
    · rcases h1 with ⟨_, hg⟩ | ⟨_, i, t, hH⟩
      · exact hne (List.append_eq_nil_iff.mp hg).1
      · simp only [decide_eq_true_eq] at hout
        have := hH.entry
        rw [AMap.get_eq_none_iff.mpr hout] at this
        cases this

/-- The first symbol of a number is passed on. -/
theorem first_passed {e : Env} {pub : c.Pub} {bid : Bytes} {s : State c f} (hF : FInv s) (h : Unheard bid s)
    (pre post : List Action) (a : Action) (n : Nat) (ha : ∀ x ∈ pre ++ a :: post, FromSource c e pub bid x)
    (hclock : (run c f e s (pre ++ a :: post)).clock < s.clock + 1000 * e.timeout)
    (harr : arrival e bid a = some n) (hnew : ∀ x ∈ pre, arrival e bid x ≠ some n) :
    (step c f e (run c f e s pre) a).2.forwarded = true := by
  have happ : run c f e s (pre ++ a :: post) = run c f e (step c f e (run c f e s pre) a).1 post := by
    have : ∀ (xs : List Action) (s : State c f) (ys : List Action), run c f e s (xs ++ ys) = run c f e (run c f e s xs) ys := by
      intro xs
      induction xs with
      | nil => intro s ys; rfl
      | cons x xs ih => intro s ys; exact ih _ _
    rw [this]; rfl
  rw [happ] at hclock
  have h1 : (run c f e s pre).clock < s.clock + 1000 * e.timeout :=
    Nat.lt_of_le_of_lt (Nat.le_trans (clock_step e _ a) (clock_run e post _)) hclock
  have hk := knows_run (e := e) (pub := pub) (t0 := s.clock) pre hF (.inl ⟨h, rfl⟩)
    (fun x hx => ha x (List.mem_append_left _ hx)) (Nat.le_refl _) h1
  refine (knows_step (FInv.run e pre hF) hk a (ha a (by simp)) (clock_run e pre s) h1).2 n harr ?_
  simp only [List.nil_append, List.mem_filterMap, not_exists, not_and]
  exact hnew

end Verif.Overlay
