import Verif.Model.OverlayConc
import Verif.Proofs.OverlayFec
import Verif.Props.OverlayFec
import Verif.Props.Takeover

/-!
# C131: broadcasts handled by several tasks at once
-/
namespace Verif.Overlay.Conc
open Verif.Tl Verif.AdnlProto Verif.Rldp Verif.Overlay

variable {c : Crypto} {f : Fec}

/-! ### Specification -/

def Event.isDelivered (bid : Bytes) : Event → Bool
  | .delivered b _ => decide (b = bid)
  | _ => false

def Event.isPassed (bid : Bytes) : Event → Bool
  | .passed b => decide (b = bid)
  | _ => false

def Event.isForgotten (bid : Bytes) : Event → Bool
  | .forgotten b => decide (b = bid)
  | _ => false

/-- What has happened in the course of a run. -/
def history (c : Crypto) (f : Fec) (e : Env) (as : List Act) : List Event := (run c f e (State.init c f) as).log

/-! ### Counting -/

theorem countP_set {α : Type} (p : α → Bool) {l : List α} {k : Nat} {x : α} (h : l[k]? = some x) (y : α) :
    (l.set k y).countP p + (if p x then 1 else 0) = l.countP p + (if p y then 1 else 0) := by
  induction l generalizing k with
  | nil => cases h
  | cons a l ih =>
    cases k with
    | zero =>
      simp only [List.getElem?_cons_zero, Option.some.injEq] at h
      subst h
      simp only [List.set_cons_zero, List.countP_cons]
      omega
    | succ k =>
      simp only [List.getElem?_cons_succ] at h
      have := ih h
      simp only [List.set_cons_succ, List.countP_cons]
      omega

/-- The broadcast is in the table. -/
def known (bid : Bytes) (s : Overlay.State c f) : Nat := if (s.owned.get bid).isSome then 1 else 0

/-- A receiving task that may still give the broadcast to the application. -/
def isRunning (bid : Bytes) (t : Transfer c f) : Bool := decide (t.bid = bid ∧ t.phase = .running)

def running (bid : Bytes) (s : Overlay.State c f) : Nat := s.transfers.countP (isRunning bid)

/-- A task that is going to give the broadcast to the application. -/
def Thread.isCreated (bid : Bytes) : Thread c → Bool
  | .created b _ _ => decide (b = bid)
  | _ => false

/-- A task that is going to pass the broadcast on. -/
def Thread.isPassing (bid : Bytes) : Thread c → Bool
  | .created b _ _ | .pushed b => decide (b = bid)
  | _ => false

theorem running_set {bid : Bytes} {s : Overlay.State c f} {i : Nat} {t t' : Transfer c f}
    (h : s.transfers[i]? = some t) (hb : t'.bid = t.bid) (hp : t'.phase = t.phase) :
    running bid { s with transfers := s.transfers.set i t' } = running bid s := by
  have := countP_set (isRunning bid) h t'
  have e : isRunning bid t' = isRunning bid t := by unfold isRunning; rw [hb, hp]
  rw [e] at this
  unfold running
  simp only
  omega

theorem known_put (bid b : Bytes) (v : Owned) (s s' : Overlay.State c f) (h : s'.owned = s.owned.put b v) :
    known bid s' = if bid = b then 1 else known bid s := by
  unfold known
  rw [h, AMap.get_put]
  by_cases hb : bid = b <;> simp [hb]

theorem known_of_none {bid : Bytes} {s : Overlay.State c f} (h : s.owned.get bid = none) : known bid s = 0 := by
  unfold known; rw [h]; rfl

theorem ite_eq_nat (b bid : Bytes) : (if decide (b = bid) = true then 1 else 0) = if bid = b then 1 else 0 := by
  by_cases h : b = bid
  · simp [h]
  · simp [h, Ne.symm h]

/-- What a step of a task that handles a message gives to the application, or may still give, is paid for by what is
remembered; the same for passing on. -/
def Pays (bid : Bytes) (s : Overlay.State c f) (th : Thread c) (r : Overlay.State c f × Thread c × List Event) : Prop :=
  (if r.2.1.isCreated bid then 1 else 0) + r.2.2.countP (Event.isDelivered bid) + running bid r.1 + known bid s ≤
    (if th.isCreated bid then 1 else 0) + running bid s + known bid r.1 ∧
  (if r.2.1.isPassing bid then 1 else 0) + r.2.2.countP (Event.isPassed bid) + known bid s ≤
    (if th.isPassing bid then 1 else 0) + known bid r.1 ∧
  r.2.2.countP (Event.isForgotten bid) = 0

theorem threadStep_pays (e : Env) (s : Overlay.State c f) (th : Thread c) (bid : Bytes) :
    Pays bid s th (threadStep c f e s th) := by
  have trivialCase : ∀ (s' : Overlay.State c f) (th' : Thread c) (evs : List Event), s'.owned = s.owned →
      running bid s' = running bid s → th'.isCreated bid = false → th'.isPassing bid = false →
      (∀ ev ∈ evs, ev.isDelivered bid = false ∧ ev.isPassed bid = false ∧ ev.isForgotten bid = false) →
      Pays bid s th (s', th', evs) := by
    intro s' th' evs ho hr h1 h2 h3
    have hk : known bid s' = known bid s := by unfold known; rw [ho]
    have c1 : evs.countP (Event.isDelivered bid) = 0 := by
      rw [List.countP_eq_zero]; intro ev hev; simp [(h3 ev hev).1]
    have c2 : evs.countP (Event.isPassed bid) = 0 := by
      rw [List.countP_eq_zero]; intro ev hev; simp [(h3 ev hev).2.1]
    have c3 : evs.countP (Event.isForgotten bid) = 0 := by
      rw [List.countP_eq_zero]; intro ev hev; simp [(h3 ev hev).2.2]
    unfold Pays
    simp only [hk, hr, h1, h2, c1, c2, c3]
    simp
  have nil3 : ∀ ev ∈ ([] : List Event), ev.isDelivered bid = false ∧ ev.isPassed bid = false ∧
      ev.isForgotten bid = false := fun ev h => by cases h
  have fail3 : ∀ ev ∈ [Event.failed], ev.isDelivered bid = false ∧ ev.isPassed bid = false ∧
      ev.isForgotten bid = false := fun ev h => by
    simp only [List.mem_singleton] at h; subst h; exact ⟨rfl, rfl, rfl⟩
  cases th with
  | ordinary now b =>
    simp only [threadStep]
    split
    · exact trivialCase _ _ _ rfl rfl rfl rfl nil3
    · exact trivialCase _ _ _ rfl rfl rfl rfl fail3
    · next bid' data source _ =>
      split
      · exact trivialCase _ _ _ rfl rfl rfl rfl nil3
      · next hn =>
        have hk := known_put bid bid' .other s { s with owned := s.owned.put bid' .other } rfl
        unfold Pays
        simp only [hk, Thread.isCreated, Thread.isPassing, List.countP_nil]
        by_cases hb : bid = bid'
        · subst hb
          rw [known_of_none hn]
          simp [running]
          omega
        · simp [hb, Ne.symm hb, running]
  | created b data source =>
    simp only [Pays, threadStep, Thread.isCreated, Thread.isPassing, List.countP_cons, List.countP_nil,
      Event.isDelivered, Event.isPassed, Event.isForgotten]
    simp
  | pushed b =>
    simp only [Pays, threadStep, Thread.isCreated, Thread.isPassing, List.countP_cons, List.countP_nil,
      Event.isDelivered, Event.isPassed, Event.isForgotten]
    simp
  | cleaning b => exact trivialCase _ _ _ rfl rfl rfl rfl nil3
  | own b =>
    simp only [threadStep]
    split
    · exact trivialCase _ _ _ rfl rfl rfl rfl nil3
    · next hn =>
      have hk := known_put bid b .other s { s with owned := s.owned.put b .other } rfl
      have : known bid s ≤ 1 := by unfold known; split <;> omega
      unfold Pays
      simp only [hk, Thread.isCreated, Thread.isPassing, List.countP_nil]
      by_cases hb : bid = b
      · simp [hb, running]
        subst hb; omega
      · simp [hb, running]
  | fec now b =>
    simp only [threadStep]
    split
    · exact trivialCase _ _ _ rfl rfl rfl rfl fail3
    · exact trivialCase _ _ _ rfl rfl rfl rfl nil3
    · split
      · exact trivialCase _ _ _ rfl rfl rfl rfl fail3
      · split
        · exact trivialCase _ _ _ rfl rfl rfl rfl fail3
        · split
          · exact trivialCase _ _ _ rfl rfl rfl rfl nil3
          · exact trivialCase _ _ _ rfl rfl rfl rfl nil3
          · next hn =>
            have hk : ∀ src, known bid (newTransfer c f e s b src) = if bid = b.dataHash then 1 else known bid s :=
              fun src => known_put bid b.dataHash (.incoming s.transfers.length) s _ rfl
            have hr : ∀ src, running bid (newTransfer c f e s b src) =
                running bid s + if bid = b.dataHash then 1 else 0 := by
              intro src
              unfold running newTransfer
              rw [List.countP_append]
              simp only [List.countP_cons, List.countP_nil, isRunning, and_true, ite_eq_nat, Nat.zero_add]
            unfold Pays
            simp only [hk, hr, Thread.isCreated, Thread.isPassing, List.countP_nil]
            by_cases hb : bid = b.dataHash
            · rw [hb, known_of_none hn]
              simp
            · simp [hb]
  | refresh i pub b =>
    simp only [threadStep]
    split
    · exact trivialCase _ _ _ rfl rfl rfl rfl nil3
    · next t ht =>
      split
      · exact trivialCase _ _ _ rfl (running_set ht rfl rfl) rfl rfl nil3
      · exact trivialCase _ _ _ rfl (running_set ht rfl rfl) rfl rfl nil3
  | deliver i pub b =>
    simp only [threadStep]
    split
    · exact trivialCase _ _ _ rfl rfl rfl rfl nil3
    · next t ht =>
      refine trivialCase _ _ _ rfl (running_set ht rfl rfl) ?_ ?_ nil3 <;> split <;> rfl
  | load i pub b =>
    simp only [threadStep]
    split
    · exact trivialCase _ _ _ rfl rfl rfl rfl nil3
    · refine trivialCase _ _ _ rfl rfl ?_ ?_ nil3 <;> split <;> rfl
  | send i pub b =>
    simp only [threadStep]
    split
    · exact trivialCase _ _ _ rfl rfl rfl rfl nil3
    · next t ht =>
      split
      · exact trivialCase _ _ _ rfl rfl rfl rfl fail3
      · exact trivialCase _ _ _ rfl (running_set ht rfl rfl) rfl rfl nil3
  | forward i b =>
    refine trivialCase _ _ _ rfl rfl rfl rfl ?_
    intro ev h
    simp only [List.mem_singleton] at h; subst h; exact ⟨rfl, rfl, rfl⟩
  | done => exact trivialCase _ _ _ rfl rfl rfl rfl nil3

def given (bid : Bytes) (s : State c f) : Nat :=
  s.log.countP (Event.isDelivered bid) + s.threads.countP (Thread.isCreated bid) + running bid s.shared

def passing (bid : Bytes) (s : State c f) : Nat :=
  s.log.countP (Event.isPassed bid) + s.threads.countP (Thread.isPassing bid)

def times (bid : Bytes) (s : State c f) : Nat := s.log.countP (Event.isForgotten bid) + known bid s.shared

/-- The broadcast is not given to the application or passed on more often than it is remembered anew. -/
def Bounded (bid : Bytes) (s s' : State c f) : Prop :=
  given bid s' + times bid s ≤ given bid s + times bid s' ∧ passing bid s' + times bid s ≤ passing bid s + times bid s'

theorem bounded_of {bid : Bytes} {s s' : State c f} (h1 : s'.log = s.log) (h2 : s'.threads = s.threads)
    (h3 : s'.shared.owned = s.shared.owned) (h4 : running bid s'.shared = running bid s.shared) : Bounded bid s s' := by
  unfold Bounded given passing times known
  rw [h1, h2, h3, h4]
  exact ⟨Nat.le_refl _, Nat.le_refl _⟩

theorem bounded_spawn {bid : Bytes} (s : State c f) {th : Thread c} (h1 : th.isCreated bid = false)
    (h2 : th.isPassing bid = false) : Bounded bid s { s with threads := s.threads ++ [th] } := by
  unfold Bounded given passing times
  simp [List.countP_append, h1, h2]

theorem mark_running (s : Overlay.State c f) (i : Nat) (bid : Bytes) : running bid (markStep c f s i) = running bid s := by
  unfold markStep
  split
  · rfl
  · next t ht =>
    split
    · rfl
    · next hp =>
      have hp' : t.phase = .leaving := not_ne_iff.mp hp
      have h1 : running bid { s with transfers := s.transfers.set i { t with phase := .ended } } = running bid s := by
        have := countP_set (isRunning bid) ht { t with phase := .ended }
        unfold running
        simp only [isRunning, hp'] at this ⊢
        simpa using this
      simp only
      split
      · split
        · next u hu =>
          refine Eq.trans ?_ h1
          exact running_set (s := { s with transfers := s.transfers.set i { t with phase := .ended } }) (t := u) hu
            rfl rfl
        · exact h1
      · exact h1

/-- What the receiving task of a transfer gives to the application. -/
theorem task_counts (e : Env) (s : Overlay.State c f) (i : Nat) (t : Transfer c f) (ht : s.transfers[i]? = some t)
    (bid : Bytes) :
    ((taskStep c f e s i).2.delivered.map (Event.delivered t.bid)).toList.countP (Event.isDelivered bid) +
      running bid (taskStep c f e s i).1 ≤ running bid s ∧
    ((taskStep c f e s i).2.delivered.map (Event.delivered t.bid)).toList.countP (Event.isPassed bid) = 0 ∧
    ((taskStep c f e s i).2.delivered.map (Event.delivered t.bid)).toList.countP (Event.isForgotten bid) = 0 := by
  have key : ∀ (t' : Transfer c f) (o : Option Delivery), t.phase = .running → t'.bid = t.bid →
      (o.isSome → t'.phase = .leaving) →
      (o.map (Event.delivered t.bid)).toList.countP (Event.isDelivered bid) +
        running bid { s with transfers := s.transfers.set i t' } ≤ running bid s ∧
      (o.map (Event.delivered t.bid)).toList.countP (Event.isPassed bid) = 0 ∧
      (o.map (Event.delivered t.bid)).toList.countP (Event.isForgotten bid) = 0 := by
    intro t' o hp hb ho
    have hc := countP_set (isRunning bid) ht t'
    unfold running
    cases o with
    | none =>
      refine ⟨?_, rfl, rfl⟩
      have : (if isRunning bid t' then 1 else 0) ≤ (if isRunning bid t then 1 else 0) := by
        unfold isRunning
        rw [hb, hp]
        by_cases h : t.bid = bid <;> simp [h]
        split <;> omega
      simp only [Option.map_none, Option.toList_none, List.countP_nil]
      omega
    | some d =>
      have h1 := ho rfl
      refine ⟨?_, by simp [Event.isPassed], by simp [Event.isForgotten]⟩
      simp only [isRunning, hp, h1] at hc
      simp only [Option.map_some, Option.toList_some, List.countP_cons, List.countP_nil, Event.isDelivered]
      simp at hc ⊢
      omega
  unfold taskStep
  rw [ht]
  simp only
  split
  · exact ⟨by simp, rfl, rfl⟩
  · next hp =>
    have hp' : t.phase = .running := not_ne_iff.mp hp
    split
    · split
      · exact ⟨by simp, rfl, rfl⟩
      · exact key _ none hp' rfl (fun h => by cases h)
    · split
      · exact key _ (some _) hp' rfl (fun _ => rfl)
      · exact key _ none hp' rfl (fun h => by cases h)
      · exact key _ none hp' rfl (fun h => by cases h)

theorem step_bounded (e : Env) (s : State c f) (a : Act) (bid : Bytes) : Bounded bid s (step c f e s a) := by
  cases a with
  | ordinary now b => exact bounded_spawn s rfl rfl
  | fec now b => exact bounded_spawn s rfl rfl
  | own b => exact bounded_spawn s rfl rfl
  | thread k =>
    simp only [step]
    split
    · exact bounded_of rfl rfl rfl rfl
    · next th hth =>
      obtain ⟨h1, h2, h3⟩ := threadStep_pays e s.shared th bid
      have c1 := countP_set (Thread.isCreated bid) hth (threadStep c f e s.shared th).2.1
      have c2 := countP_set (Thread.isPassing bid) hth (threadStep c f e s.shared th).2.1
      generalize threadStep c f e s.shared th = r at *
      obtain ⟨sh, th', ev⟩ := r
      simp only at h1 h2 h3 c1 c2
      unfold Bounded given passing times
      simp only [List.countP_append]
      omega
  | task i =>
    simp only [step, receiverStep]
    split
    · exact bounded_of rfl rfl rfl rfl
    · next t ht =>
      split
      · exact bounded_of rfl rfl rfl rfl
      · obtain ⟨h1, h2, h3⟩ := task_counts e s.shared i t ht bid
        have ho : known bid (taskStep c f e s.shared i).1 = known bid s.shared := by
          unfold known; rw [Takeover.task_owned]
        unfold Bounded given passing times
        simp only [List.countP_append]
        omega
  | mark i => exact bounded_of rfl rfl (Takeover.mark_owned _ _) (mark_running _ _ _)
  | cleanup i =>
    refine bounded_of rfl rfl (Takeover.cleanup_owned _ _ _) ?_
    simp only [step, Overlay.step, cleanupStep]
    split
    · rfl
    · split
      · rfl
      · split <;> rfl
  | tick ms => exact bounded_of rfl rfl rfl rfl
  | expire i =>
    simp only [step, Overlay.step]
    split
    · exact bounded_of rfl rfl rfl rfl
    · split <;> exact bounded_of rfl rfl rfl rfl
  | push i =>
    simp only [step, Overlay.step]
    split <;> exact bounded_of rfl rfl rfl rfl
  | gcCheck =>
    simp only [step, Overlay.step]
    split <;> exact bounded_of rfl rfl rfl rfl
  | gcSub =>
    simp only [step, Overlay.step]
    split <;> exact bounded_of rfl rfl rfl rfl
  | gcPop =>
    simp only [step, Overlay.step, forgets]
    split
    · split
      · next hq =>
        unfold Bounded given passing times known running
        simp [hq]
      · next b rest hq =>
        unfold Bounded given passing times known running
        simp only [List.countP_append, AMap.get_erase, hq]
        by_cases hb : bid = b
        · subst hb
          cases ho : (s.shared.owned.get bid).isSome <;>
            simp [Event.isDelivered, Event.isPassed, Event.isForgotten]
        · have hb' : ¬ b = bid := fun h => hb h.symm
          cases ho : (s.shared.owned.get b).isSome <;>
            simp [Event.isDelivered, Event.isPassed, Event.isForgotten, hb, hb']
    · exact bounded_of (by simp) rfl rfl rfl

theorem run_bounded (e : Env) (bid : Bytes) (as : List Act) :
    given bid (run c f e (State.init c f) as) ≤ times bid (run c f e (State.init c f) as) ∧
    passing bid (run c f e (State.init c f) as) ≤ times bid (run c f e (State.init c f) as) := by
  have key : ∀ (as : List Act) (s : State c f), given bid s ≤ times bid s → passing bid s ≤ times bid s →
      given bid (run c f e s as) ≤ times bid (run c f e s as) ∧
      passing bid (run c f e s as) ≤ times bid (run c f e s as) := by
    intro as
    induction as with
    | nil => intro s h1 h2; exact ⟨h1, h2⟩
    | cons a as ih =>
      intro s h1 h2
      obtain ⟨h3, h4⟩ := step_bounded e s a bid
      exact ih _ (by omega) (by omega)
  exact key as _ (Nat.le_refl _) (Nat.le_refl _)

/-! ### Where what is delivered comes from -/

/-- The packet has come, and its source is readable. -/
def Came (c : Crypto) (as : List Act) (p : c.Pub × FecPart) : Prop :=
  (∃ now, Act.fec now p.2 ∈ as) ∧ Receiver.fullId c p.2.src = some p.1

/-- An ordinary broadcast with this identity has come, not older than the timeout; its signature is one by its source
over the content delivered, the date and (if the flags ask for it) the source, and the identity is the hash of this
text. -/
def FromOrdinary (c : Crypto) (e : Env) (as : List Act) (bid : Bytes) (d : Delivery) : Prop :=
  ∃ now b, Act.ordinary now b ∈ as ∧ d.packets = 1 ∧ now ≤ b.date + e.timeout ∧
    (∃ k pub, b.src = .ed25519 k ∧ c.decodePub k = some pub ∧ d.source = Node.shortId c pub ∧
      b.signature.length = 64 ∧
      c.verify pub (ordinaryText c.sha (slot b d.source) d.data b.date) b.signature = true) ∧
    (d.data = b.data ∨ decompress e.z b.data = some d.data) ∧
    bid = c.sha (ordinaryText c.sha (slot b d.source) d.data b.date)

/-- The content hashes to the identity, and is what the decoder made of symbols that have come, all signed by the
source under this identity. -/
def FromFec (c : Crypto) (f : Fec) (e : Env) (as : List Act) (bid : Bytes) (d : Delivery) : Prop :=
  bid = c.sha d.data ∧
  ∃ (fec : FecType) (used : List (c.Pub × FecPart)) (pub : c.Pub) (b : FecPart) (r : Bytes),
    (∀ u ∈ used ++ [(pub, b)], FecSigned c bid d.source u ∧ Came c as u) ∧
    (f.decode (decodeAll f (f.new fec) (used.map (·.2))) b.seqno b.data).2 = some r ∧
    r.length = b.dataSize ∧ (d.data = r ∨ decompress e.z r = some d.data)

structure TInv (as : List Act) (t : Transfer c f) : Prop where
  chan : ∀ p ∈ t.chan, p.2.dataHash = t.bid ∧ Node.shortId c p.1 = t.source ∧ Came c as p
  dec : ∃ (fec : FecType) (used : List (c.Pub × FecPart)), t.dec = decodeAll f (f.new fec) (used.map (·.2)) ∧
    ∀ u ∈ used, FecSigned c t.bid t.source u ∧ Came c as u

theorem TInv.weak {as : List Act} {t : Transfer c f} (h : TInv as t) : TrInv t := by
  obtain ⟨h1, fec, used, h2, h3⟩ := h
  exact ⟨fun p hp => ⟨(h1 p hp).1, (h1 p hp).2.1⟩, fec, used, h2, fun u hu => (h3 u hu).1⟩

theorem TInv.congr {as : List Act} {t t' : Transfer c f} (h : TInv as t) (h1 : t'.bid = t.bid)
    (h2 : t'.source = t.source) (h3 : t'.chan = t.chan) (h4 : t'.dec = t.dec) : TInv as t' := by
  obtain ⟨hc, fec, used, hd, hu⟩ := h
  refine ⟨?_, fec, used, by rw [h4]; exact hd, ?_⟩
  · rw [h1, h2, h3]; exact hc
  · rw [h1, h2]; exact hu

theorem TInv.decoded {as : List Act} {t : Transfer c f} (h : TInv as t) {p : c.Pub × FecPart}
    {rest : List (c.Pub × FecPart)} (hc : t.chan = p :: rest) (z : Zstd) (ph : Phase) :
    TInv as { t with dec := (processFec c f z t.dec p.1 p.2).1, chan := rest, packets := t.packets + 1,
                     phase := ph } := by
  obtain ⟨hch, fec, used, hd, hu⟩ := h
  rw [hc] at hch
  refine ⟨fun q hq => hch q (List.mem_cons_of_mem _ hq), ?_⟩
  obtain ⟨e1, e2, e3⟩ := hch p List.mem_cons_self
  rcases processFec_cases (f := f) z t.dec p.1 p.2 t.bid t.source e1 e2 with h1 | ⟨h1, h2, _⟩
  · refine ⟨fec, used, ?_, hu⟩
    rw [h1]; exact hd
  · refine ⟨fec, used ++ [p], ?_, ?_⟩
    · simp only [h2, List.map_append, List.map_cons, List.map_nil]
      unfold decodeAll at hd ⊢
      rw [List.foldl_append, ← hd]
      rfl
    · intro u hu'
      rcases List.mem_append.mp hu' with hu' | hu'
      · exact hu u hu'
      · simp only [List.mem_singleton] at hu'
        subst hu'
        exact ⟨h1, e3⟩

/-- Transfers stay, with their identity and source. -/
def Keeps (l l' : List (Transfer c f)) : Prop :=
  ∀ (i : Nat) (t : Transfer c f), l[i]? = some t → ∃ t' : Transfer c f, l'[i]? = some t' ∧ t'.bid = t.bid ∧ t'.source = t.source

theorem Keeps.rfl' (l : List (Transfer c f)) : Keeps l l := fun _ t h => ⟨t, h, rfl, rfl⟩

theorem Keeps.trans {l l' l'' : List (Transfer c f)} (h : Keeps l l') (h' : Keeps l' l'') : Keeps l l'' := by
  intro i t ht
  obtain ⟨t', h1, h2, h3⟩ := h i t ht
  obtain ⟨t'', h4, h5, h6⟩ := h' i t' h1
  exact ⟨t'', h4, h5.trans h2, h6.trans h3⟩

theorem getElem?_set_some {α : Type} {l : List α} {i : Nat} {a : α} (h : l[i]? = some a) (x : α) (j : Nat) :
    (l.set i x)[j]? = if j = i then some x else l[j]? := by
  have hi : i < l.length := (List.getElem?_eq_some_iff.mp h).1
  rw [List.getElem?_set]
  by_cases hij : i = j
  · subst hij; simp [hi]
  · simp [hij, Ne.symm hij]

theorem keeps_set {l : List (Transfer c f)} {i : Nat} {t t' : Transfer c f} (ht : l[i]? = some t)
    (hb : t'.bid = t.bid) (hs : t'.source = t.source) : Keeps l (l.set i t') := by
  intro j u hu
  rw [getElem?_set_some ht]
  split
  · next h => subst h; rw [ht] at hu; cases hu; exact ⟨t', rfl, hb, hs⟩
  · exact ⟨u, hu, rfl, rfl⟩

theorem keeps_append (l : List (Transfer c f)) (t : Transfer c f) : Keeps l (l ++ [t]) := by
  intro i u hu
  exact ⟨u, by rw [List.getElem?_append_left (List.getElem?_eq_some_iff.mp hu).1]; exact hu, rfl, rfl⟩

/-- The transfer `i` is one for the packet. -/
def Has (l : List (Transfer c f)) (i : Nat) (b : FecPart) (source : Option Bytes) : Prop :=
  ∃ t, l[i]? = some t ∧ t.bid = b.dataHash ∧ ∀ x, source = some x → t.source = x

theorem Has.keeps {l l' : List (Transfer c f)} {i : Nat} {b : FecPart} {source : Option Bytes} (h : Has l i b source)
    (hk : Keeps l l') : Has l' i b source := by
  obtain ⟨t, h1, h2, h3⟩ := h
  obtain ⟨t', h4, h5, h6⟩ := hk i t h1
  exact ⟨t', h4, h5.trans h2, fun x hx => h6.trans (h3 x hx)⟩

/-- What a task knows of what it does. -/
def ThreadOk (e : Env) (as : List Act) (l : List (Transfer c f)) : Thread c → Prop
  | .ordinary now b => Act.ordinary now b ∈ as
  | .created bid data source => FromOrdinary c e as bid ⟨1, data, source⟩
  | .fec now b => Act.fec now b ∈ as
  | .refresh i pub b => Came c as (pub, b) ∧ Has l i b none
  | .deliver i pub b | .load i pub b | .send i pub b => Came c as (pub, b) ∧ Has l i b (some (Node.shortId c pub))
  | _ => True

theorem ThreadOk.keeps {e : Env} {as : List Act} {l l' : List (Transfer c f)} {th : Thread c}
    (h : ThreadOk e as l th) (hk : Keeps l l') : ThreadOk e as l' th := by
  cases th <;> first | exact h | exact ⟨h.1, h.2.keeps hk⟩

structure CInv (e : Env) (as : List Act) (s : State c f) : Prop where
  base : FInv s.shared
  trs : ∀ t ∈ s.shared.transfers, TInv as t
  threads : ∀ th ∈ s.threads, ThreadOk e as s.shared.transfers th
  log : ∀ bid d, Event.delivered bid d ∈ s.log → FromOrdinary c e as bid d ∨ FromFec c f e as bid d

/-- What a step of a task that handles a message keeps. -/
def Sound (e : Env) (as : List Act) (s : Overlay.State c f) (r : Overlay.State c f × Thread c × List Event) : Prop :=
  FInv r.1 ∧ (∀ t ∈ r.1.transfers, TInv as t) ∧ Keeps s.transfers r.1.transfers ∧ ThreadOk e as r.1.transfers r.2.1 ∧
  ∀ bid d, Event.delivered bid d ∈ r.2.2 → FromOrdinary c e as bid d

theorem threadStep_sound {e : Env} {as : List Act} {s : Overlay.State c f} (hF : FInv s)
    (hT : ∀ t ∈ s.transfers, TInv as t) {th : Thread c} (hth : ThreadOk e as s.transfers th) :
    Sound e as s (threadStep c f e s th) := by
  have same : ∀ (s' : Overlay.State c f) (th' : Thread c) (evs : List Event), FInv s' → s'.transfers = s.transfers →
      ThreadOk e as s.transfers th' → (∀ bid d, Event.delivered bid d ∈ evs → FromOrdinary c e as bid d) →
      Sound e as s (s', th', evs) := by
    intro s' th' evs h1 h2 h3 h4
    refine ⟨h1, ?_, ?_, ?_, h4⟩
    · simp only [h2]; exact hT
    · simp only [h2]; exact Keeps.rfl' _
    · simp only [h2]; exact h3
  have changed : ∀ (i : Nat) (t t' : Transfer c f) (th' : Thread c), s.transfers[i]? = some t → t'.bid = t.bid →
      t'.source = t.source → TInv as t' → ThreadOk e as (s.transfers.set i t') th' →
      Sound e as s ({ s with transfers := s.transfers.set i t' }, th', []) := by
    intro i t t' th' ht hb hs hi hth'
    refine ⟨hF.setT ht hb hi.weak, ?_, keeps_set ht hb hs, hth', fun bid d h => absurd h List.not_mem_nil⟩
    intro u hu
    rcases mem_set hu with hu | rfl
    · exact hT u hu
    · exact hi
  have none' : ∀ bid d, Event.delivered bid d ∈ ([] : List Event) → FromOrdinary c e as bid d :=
    fun bid d h => absurd h List.not_mem_nil
  have other : ∀ (ev : Event), (∀ bid d, ev ≠ .delivered bid d) → ∀ bid d, Event.delivered bid d ∈ [ev] →
      FromOrdinary c e as bid d := by
    intro ev hev bid d h
    simp only [List.mem_singleton] at h
    exact absurd h.symm (hev bid d)
  cases th with
  | ordinary now b =>
    simp only [threadStep]
    split
    · exact same _ _ _ hF rfl trivial none'
    · exact same _ _ _ hF rfl trivial (other _ (fun _ _ h => by cases h))
    · next bid data source hc =>
      split
      · exact same _ _ _ hF rfl trivial none'
      · refine same _ _ _ (hF.putOther bid rfl rfl) rfl ?_ none'
        obtain ⟨h1, h2, h3, h4⟩ := check_ok hc
        exact ⟨now, b, hth, rfl, h1, h2, h3, h4⟩
  | created bid data source =>
    simp only [threadStep]
    refine same _ _ _ hF rfl trivial ?_
    intro b d h
    simp only [List.mem_singleton, Event.delivered.injEq] at h
    obtain ⟨rfl, rfl⟩ := h
    exact hth
  | pushed bid =>
    exact same _ _ _ hF rfl trivial (other _ (fun _ _ h => by cases h))
  | cleaning bid => exact same _ _ _ (hF.congr rfl rfl) rfl trivial none'
  | own bid =>
    simp only [threadStep]
    split
    · exact same _ _ _ hF rfl trivial none'
    · exact same _ _ _ (hF.putOther bid rfl rfl) rfl trivial none'
  | fec now b =>
    simp only [threadStep]
    split
    · exact same _ _ _ hF rfl trivial (other _ (fun _ _ h => by cases h))
    · exact same _ _ _ hF rfl trivial none'
    · split
      · exact same _ _ _ hF rfl trivial (other _ (fun _ _ h => by cases h))
      · next pub hpub =>
        have hcame : Came c as (pub, b) := ⟨⟨now, hth⟩, hpub⟩
        split
        · exact same _ _ _ hF rfl trivial (other _ (fun _ _ h => by cases h))
        · split
          · next i hi =>
            refine same _ _ _ hF rfl ⟨hcame, ?_⟩ none'
            obtain ⟨t, h1, h2⟩ := hF.entry _ _ hi
            exact ⟨t, h1, h2, fun x hx => by cases hx⟩
          · exact same _ _ _ hF rfl trivial none'
          · refine ⟨newTransfer_inv hF b _, ?_, keeps_append _ _, ⟨hcame, ?_⟩, none'⟩
            · intro t ht
              simp only [newTransfer, List.mem_append, List.mem_singleton] at ht
              rcases ht with ht | rfl
              · exact hT t ht
              · exact ⟨fun p hp => absurd hp List.not_mem_nil, b.fec, [], rfl, fun u hu => absurd hu List.not_mem_nil⟩
            · exact ⟨_, by simp only [newTransfer]; rw [List.getElem?_append_right (Nat.le_refl _)]; simp; rfl, rfl,
                fun x hx => by cases hx⟩
  | refresh i pub b =>
    obtain ⟨hcame, t, ht, hb, _⟩ := hth
    have hi := hT t (List.mem_of_getElem? ht)
    simp only [threadStep, ht]
    split
    · exact changed i t { t with updatedAt := _ } _ ht rfl rfl (hi.congr rfl rfl rfl rfl) trivial
    · next hs =>
      refine changed i t { t with updatedAt := _ } _ ht rfl rfl (hi.congr rfl rfl rfl rfl)
        ⟨hcame, { t with updatedAt := (s.clock - t.startedAt) / 1000 }, by rw [getElem?_set_some ht, if_pos rfl], hb, ?_⟩
      intro x hx; cases hx; exact not_ne_iff.mp hs
  | deliver i pub b =>
    obtain ⟨hcame, t, ht, hb, hs⟩ := hth
    have hi := hT t (List.mem_of_getElem? ht)
    simp only [threadStep, ht]
    refine changed i t { t with hist := _ } _ ht rfl rfl (hi.congr rfl rfl rfl rfl) ?_
    split
    · exact ⟨hcame, { t with hist := (PacketsHistory.deliver t.hist b.seqno).1 }, by rw [getElem?_set_some ht, if_pos rfl], hb, hs⟩
    · trivial
  | load i pub b =>
    obtain ⟨hcame, t, ht, hb, hs⟩ := hth
    simp only [threadStep, ht]
    refine same _ _ _ hF rfl ?_ none'
    split
    · trivial
    · exact ⟨hcame, t, ht, hb, hs⟩
  | send i pub b =>
    obtain ⟨hcame, t, ht, hb, hs⟩ := hth
    have hi := hT t (List.mem_of_getElem? ht)
    simp only [threadStep, ht]
    split
    · exact same _ _ _ hF rfl trivial (other _ (fun _ _ h => by cases h))
    · refine changed i t { t with chan := t.chan ++ [(pub, b)] } _ ht rfl rfl ⟨?_, hi.dec⟩ trivial
      intro p hp
      rcases List.mem_append.mp hp with hp | hp
      · exact hi.chan p hp
      · simp only [List.mem_singleton] at hp
        subst hp
        exact ⟨hb.symm, (hs _ rfl).symm, hcame⟩
  | forward i b => exact same _ _ _ hF rfl trivial (other _ (fun _ _ h => by cases h))
  | done => exact same _ _ _ hF rfl trivial none'

/-- What the other tasks do with the transfers. -/
def Rest (as : List Act) (s s' : Overlay.State c f) : Prop :=
  (∀ t ∈ s'.transfers, TInv as t) ∧ Keeps s.transfers s'.transfers

theorem rest_same {as : List Act} {s s' : Overlay.State c f} (hT : ∀ t ∈ s.transfers, TInv as t)
    (h : s'.transfers = s.transfers) : Rest as s s' :=
  ⟨by rw [h]; exact hT, by rw [h]; exact Keeps.rfl' _⟩

theorem rest_set {as : List Act} {s : Overlay.State c f} (hT : ∀ t ∈ s.transfers, TInv as t) {i : Nat}
    {t t' : Transfer c f} (ht : s.transfers[i]? = some t) (hb : t'.bid = t.bid) (hs : t'.source = t.source)
    (hi : TInv as t') : Rest as s { s with transfers := s.transfers.set i t' } := by
  refine ⟨?_, keeps_set ht hb hs⟩
  intro u hu
  rcases mem_set hu with hu | rfl
  · exact hT u hu
  · exact hi

theorem task_rest {e : Env} {as : List Act} {s : Overlay.State c f} (hT : ∀ t ∈ s.transfers, TInv as t) (i : Nat) :
    Rest as s (taskStep c f e s i).1 := by
  unfold taskStep
  split
  · exact rest_same hT rfl
  · next t ht =>
    have hi := hT t (List.mem_of_getElem? ht)
    split
    · exact rest_same hT rfl
    · split
      · split
        · exact rest_same hT rfl
        · exact rest_set hT (t' := { t with phase := .leaving }) ht rfl rfl (hi.congr rfl rfl rfl rfl)
      · next pub b rest hc =>
        have hd := fun ph => hi.decoded hc e.z ph
        split
        · next dec data hp =>
          refine rest_set hT (t' := { t with dec := dec, chan := rest, packets := t.packets + 1, phase := .leaving })
            ht rfl rfl ?_
          have := hd .leaving
          simp only [hp] at this
          exact this
        · next dec hp =>
          refine rest_set hT (t' := { t with dec := dec, chan := rest, packets := t.packets + 1 }) ht rfl rfl ?_
          have := hd t.phase
          simp only [hp] at this
          exact this
        · next dec hp =>
          refine rest_set hT (t' := { t with dec := dec, chan := rest, packets := t.packets + 1, phase := .leaving })
            ht rfl rfl ?_
          have := hd .leaving
          simp only [hp] at this
          exact this

theorem mark_rest {as : List Act} {s : Overlay.State c f} (hT : ∀ t ∈ s.transfers, TInv as t) (i : Nat) :
    Rest as s (markStep c f s i) := by
  unfold markStep
  split
  · exact rest_same hT rfl
  · next t ht =>
    split
    · exact rest_same hT rfl
    · have h1 := rest_set hT (t' := { t with phase := .ended }) ht rfl rfl
        ((hT t (List.mem_of_getElem? ht)).congr rfl rfl rfl rfl)
      simp only
      split
      · split
        · next u hu =>
          have h2 := rest_set (s := { s with transfers := s.transfers.set i { t with phase := .ended } }) h1.1
            (t' := { u with completed := true }) hu rfl rfl ((h1.1 u (List.mem_of_getElem? hu)).congr rfl rfl rfl rfl)
          exact ⟨h2.1, h1.2.trans h2.2⟩
        · exact h1
      · exact h1

theorem CInv.shared {e : Env} {as : List Act} {s : State c f} (h : CInv e as s) {sh : Overlay.State c f}
    (h1 : FInv sh) (h2 : Rest as s.shared sh) {log : List Event}
    (h3 : ∀ bid d, Event.delivered bid d ∈ log → FromOrdinary c e as bid d ∨ FromFec c f e as bid d) :
    CInv e as { s with shared := sh, log := s.log ++ log } := by
  refine ⟨h1, h2.1, fun th hth => (h.threads th hth).keeps h2.2, ?_⟩
  intro bid d hd
  rcases List.mem_append.mp hd with hd | hd
  · exact h.log bid d hd
  · exact h3 bid d hd

theorem CInv.shared' {e : Env} {as : List Act} {s : State c f} (h : CInv e as s) {sh : Overlay.State c f}
    (h1 : FInv sh) (h2 : Rest as s.shared sh) : CInv e as { s with shared := sh } :=
  ⟨h1, h2.1, fun th hth => (h.threads th hth).keeps h2.2, h.log⟩

theorem CInv.spawn {e : Env} {as : List Act} {s : State c f} (h : CInv e as s) {th : Thread c}
    (hth : ThreadOk e as s.shared.transfers th) : CInv e as { s with threads := s.threads ++ [th] } := by
  refine ⟨h.base, h.trs, ?_, h.log⟩
  intro x hx
  rcases List.mem_append.mp hx with hx | hx
  · exact h.threads x hx
  · simp only [List.mem_singleton] at hx
    subst hx; exact hth

theorem CInv.step {e : Env} {as : List Act} {s : State c f} (h : CInv e as s) {a : Act} (ha : a ∈ as) :
    CInv e as (step c f e s a) := by
  cases a with
  | ordinary now b => exact h.spawn ha
  | fec now b => exact h.spawn ha
  | own bid => exact h.spawn trivial
  | thread k =>
    simp only [Conc.step]
    split
    · exact h
    · next th hth =>
      obtain ⟨h1, h2, h3, h4, h5⟩ := threadStep_sound h.base h.trs (h.threads th (List.mem_of_getElem? hth))
      refine ⟨h1, h2, ?_, ?_⟩
      · intro x hx
        rcases mem_set hx with hx | rfl
        · exact (h.threads x hx).keeps h3
        · exact h4
      · intro bid d hd
        rcases List.mem_append.mp hd with hd | hd
        · exact h.log bid d hd
        · exact .inl (h5 bid d hd)
  | task i =>
    simp only [Conc.step, receiverStep]
    split
    · exact h
    · next t ht =>
      split
      · exact h
      · refine h.shared (h.base.step (e := e) (.task i)) (task_rest h.trs i) ?_
        intro bid d hd
        simp only [Option.mem_toList, Option.map_eq_some_iff, Event.delivered.injEq] at hd
        obtain ⟨d', hd', rfl, rfl⟩ := hd
        right
        obtain ⟨t', pub, b, rest, h1, _, hc, h4, _, h6, h7, ⟨r, h8, h9, h10⟩, _⟩ :=
          delivered_task (e := e) h.base (i := i) hd'
        rw [ht] at h1
        cases h1
        have hi := h.trs t (List.mem_of_getElem? ht)
        obtain ⟨fec, used, h11, h12⟩ := hi.dec
        refine ⟨h7.symm, fec, used, pub, b, r, ?_, ?_, h9, h10⟩
        · rw [h4]
          intro u hu
          rcases List.mem_append.mp hu with hu | hu
          · exact h12 u hu
          · simp only [List.mem_singleton] at hu
            subst hu
            exact ⟨h6, (hi.chan (pub, b) (by rw [hc]; exact List.mem_cons_self)).2.2⟩
        · rw [← h11]; exact h8
  | mark i => exact h.shared' (h.base.step (e := e) (.mark i)) (mark_rest h.trs i)
  | cleanup i =>
    refine h.shared' (h.base.step (e := e) (.cleanup i)) (rest_same h.trs ?_)
    simp only [Overlay.step, cleanupStep]
    split
    · rfl
    · split
      · rfl
      · split <;> rfl
  | tick ms => exact h.shared' (h.base.step (e := e) (.tick ms)) (rest_same h.trs rfl)
  | expire i =>
    refine h.shared' (h.base.step (e := e) (.expire i)) (rest_same h.trs ?_)
    simp only [Overlay.step]
    split
    · rfl
    · split <;> rfl
  | push i =>
    refine h.shared' (h.base.step (e := e) (.push i)) (rest_same h.trs ?_)
    simp only [Overlay.step]
    split <;> rfl
  | gcCheck =>
    refine h.shared' (h.base.step (e := e) .gcCheck) (rest_same h.trs ?_)
    simp only [Overlay.step]
    split <;> rfl
  | gcPop =>
    refine h.shared (h.base.step (e := e) .gcPop) (rest_same h.trs ?_) ?_
    · simp only [Overlay.step]
      split
      · split <;> rfl
      · rfl
    · intro bid d hd
      unfold forgets at hd
      split at hd
      · split at hd
        · exact absurd hd List.not_mem_nil
        · split at hd
          · simp at hd
          · exact absurd hd List.not_mem_nil
      · exact absurd hd List.not_mem_nil
  | gcSub =>
    refine h.shared' (h.base.step (e := e) .gcSub) (rest_same h.trs ?_)
    simp only [Overlay.step]
    split <;> rfl

theorem CInv.run {e : Env} {as : List Act} (bs : List Act) (hb : ∀ b ∈ bs, b ∈ as) :
    ∀ {s : State c f}, CInv e as s → CInv e as (run c f e s bs) := by
  induction bs with
  | nil => intro s h; exact h
  | cons b bs ih =>
    intro s h
    exact ih (fun x hx => hb x (List.mem_cons_of_mem _ hx)) (h.step (hb b List.mem_cons_self))

theorem CInv.init (e : Env) (as : List Act) : CInv e as (State.init c f) :=
  ⟨FInv.init, fun _ h => absurd h List.not_mem_nil, fun _ h => absurd h List.not_mem_nil,
    fun _ _ h => absurd h List.not_mem_nil⟩

/-! ### One task after the other -/

/-- What an event gives to the application. -/
def Event.given : Event → Option Delivery
  | .delivered _ d => some d
  | _ => none

/-- Whether something is passed on. -/
def Event.sent : Event → Bool
  | .passed _ | .passedPart _ => true
  | _ => false

/-- The events are those of a call with this result. -/
def Matches (evs : List Event) (out : Out) : Prop :=
  evs.filterMap Event.given = out.delivered.toList ∧ evs.any Event.sent = out.forwarded ∧
  evs.contains .failed = out.failed

/-- A task that runs alone from its first to its last step. -/
def alone (c : Crypto) (f : Fec) (e : Env) : Nat → Overlay.State c f → Thread c → Overlay.State c f × Thread c × List Event
  | 0, s, th => (s, th, [])
  | n + 1, s, th =>
    match threadStep c f e s th with
    | (s', th', evs) =>
      match alone c f e n s' th' with
      | (s'', th'', evs') => (s'', th'', evs ++ evs')

theorem alone_done (e : Env) (n : Nat) (s : Overlay.State c f) : alone c f e n s .done = (s, .done, []) := by
  induction n with
  | zero => rfl
  | succ n ih => simp only [alone, threadStep, ih]; rfl

theorem run_alone (e : Env) (n : Nat) : ∀ (sh : Overlay.State c f) (ths : List (Thread c)) (th : Thread c)
    (log : List Event),
    run c f e ⟨sh, ths ++ [th], log⟩ (List.replicate n (.thread ths.length)) =
      ⟨(alone c f e n sh th).1, ths ++ [(alone c f e n sh th).2.1], log ++ (alone c f e n sh th).2.2⟩ := by
  induction n with
  | zero => intro sh ths th log; simp [alone, run]
  | succ n ih =>
    intro sh ths th log
    have h1 : step c f e ⟨sh, ths ++ [th], log⟩ (.thread ths.length) =
        ⟨(threadStep c f e sh th).1, ths ++ [(threadStep c f e sh th).2.1], log ++ (threadStep c f e sh th).2.2⟩ := by
      simp [step]
    rw [List.replicate_succ]
    unfold run at ih ⊢
    rw [List.foldl_cons, h1, ih]
    simp [alone]

/-- The message of a call, as a task and as a step of `OverlayBroadcast`. -/
inductive Call where
  | ordinary (now : Nat) (b : Ordinary)
  | fec (now : Nat) (b : FecPart)
  | own (bid : Bytes)

def Call.spawn : Call → Act
  | .ordinary now b => .ordinary now b
  | .fec now b => .fec now b
  | .own bid => .own bid

def Call.thread : Call → Thread c
  | .ordinary now b => .ordinary now b
  | .fec now b => .fec now b
  | .own bid => .own bid

def Call.action : Call → Action
  | .ordinary now b => .ordinary now b
  | .fec now b => .fec now b
  | .own bid => .own bid

theorem alone_refresh (e : Env) (s : Overlay.State c f) (i : Nat) (t : Transfer c f) (ht : s.transfers[i]? = some t)
    (pub : c.Pub) (b : FecPart) :
    ∃ evs, alone c f e 5 s (.refresh i pub b) =
      ((Overlay.feed c f s i t pub (Node.shortId c pub) b).1, .done, evs) ∧
      Matches evs (Overlay.feed c f s i t pub (Node.shortId c pub) b).2 := by
  have hset : ∀ (x y : Transfer c f), (s.transfers.set i x)[i]? = some y ↔ y = x := by
    intro x y; rw [getElem?_set_some ht, if_pos rfl]; simp [eq_comm]
  have hset' : ∀ (x : Transfer c f), (s.transfers.set i x)[i]? = some x := fun x => (hset x x).2 rfl
  unfold Overlay.feed
  simp only
  by_cases hs : t.source = Node.shortId c pub
  · cases hd : PacketsHistory.deliver t.hist b.seqno with
    | mk h fresh =>
      cases fresh with
      | false =>
        refine ⟨[], ?_, by simp [hs], by simp [hs], by simp [hs]⟩
        simp [alone, threadStep, ht, hs, hd, hset']
      | true =>
        cases hc : t.completed with
        | true =>
          refine ⟨[.passedPart b], ?_, by simp [Event.given, hs], by simp [Event.sent, hs], by simp [hs]⟩
          simp [alone, threadStep, ht, hs, hd, hset', hc]
        | false =>
          by_cases hp : t.phase = .ended
          · refine ⟨[.failed], ?_, by simp [Event.given, hs, hp], by simp [Event.sent, hs, hp],
              by simp [hs, hp]⟩
            simp [alone, threadStep, ht, hs, hd, hset', hc, hp]
          · refine ⟨[.passedPart b], ?_, by simp [Event.given, hs, hp], by simp [Event.sent, hs, hp],
              by simp [hs, hp]⟩
            simp [alone, threadStep, ht, hs, hd, hset', hc, hp]
  · refine ⟨[], ?_, by simp [hs], by simp [hs], by simp [hs]⟩
    simp [alone, threadStep, ht, hs]

theorem alone_call (e : Env) (s : Overlay.State c f) (call : Call) :
    ∃ evs, alone c f e 6 s call.thread = ((Overlay.step c f e s call.action).1, .done, evs) ∧
      Matches evs (Overlay.step c f e s call.action).2 := by
  cases call with
  | ordinary now b =>
    simp only [Call.thread, Call.action, Overlay.step, receiveOrdinary]
    cases hc : checkOrdinary c e now b with
    | outdated => exact ⟨[], by simp [alone, threadStep, hc], rfl, rfl, rfl⟩
    | failed => exact ⟨[.failed], by simp [alone, threadStep, hc], rfl, rfl, rfl⟩
    | ok bid data source =>
      cases ho : s.owned.get bid with
      | some x => exact ⟨[], by simp [alone, threadStep, hc, ho], by simp [ho], by simp [ho], by simp [ho]⟩
      | none =>
        refine ⟨[.delivered bid ⟨1, data, source⟩, .passed bid], ?_, ?_⟩
        · simp [alone, threadStep, hc, ho]
        · simp only [ho]; exact ⟨rfl, rfl, by simp⟩
  | own bid =>
    simp only [Call.thread, Call.action, Overlay.step, createOwn]
    cases ho : s.owned.get bid with
    | some x => exact ⟨[], by simp [alone, threadStep, ho], rfl, rfl, rfl⟩
    | none => exact ⟨[], by simp [alone, threadStep, ho], rfl, rfl, rfl⟩
  | fec now b =>
    simp only [Call.thread, Call.action, Overlay.step, receiveFec]
    cases hd : isOutdated e b.date now with
    | none => exact ⟨[.failed], by simp [alone, threadStep, hd], rfl, rfl, rfl⟩
    | some o =>
      cases o with
      | true => exact ⟨[], by simp [alone, threadStep, hd], rfl, rfl, rfl⟩
      | false =>
        cases hf : Receiver.fullId c b.src with
        | none => exact ⟨[.failed], by simp [alone, threadStep, hd, hf], rfl, rfl, rfl⟩
        | some pub =>
          simp only
          by_cases hl : b.signature.length = 64
          · rw [if_neg (by simp [hl])]
            cases ho : s.owned.get b.dataHash with
            | some x =>
              rw [if_neg (by simp)]
              simp only [ho]
              cases x with
              | other => exact ⟨[], by simp [alone, threadStep, hd, hf, hl, ho], rfl, rfl, rfl⟩
              | incoming i =>
                simp only
                cases ht : s.transfers[i]? with
                | none => exact ⟨[], by simp [alone, threadStep, hd, hf, hl, ho, ht], rfl, rfl, rfl⟩
                | some t =>
                  obtain ⟨evs, h1, h2⟩ := alone_refresh e s i t ht pub b
                  refine ⟨evs, ?_, h2⟩
                  rw [alone]
                  simp [threadStep, hd, hf, hl, ho, h1]
            | none =>
              rw [if_pos (by simp)]
              have h0 : (newTransfer c f e s b (Node.shortId c pub)).owned.get b.dataHash =
                  some (.incoming s.transfers.length) := by
                simp only [newTransfer, AMap.get_put_self]
              rw [h0]
              simp only
              cases ht : (newTransfer c f e s b (Node.shortId c pub)).transfers[s.transfers.length]? with
              | none => simp [newTransfer] at ht
              | some t =>
                obtain ⟨evs, h1, h2⟩ := alone_refresh e _ _ t ht pub b
                refine ⟨evs, ?_, h2⟩
                rw [alone]
                simp [threadStep, hd, hf, hl, ho, h1]
          · rw [if_pos hl]
            exact ⟨[.failed], by simp [alone, threadStep, hd, hf, hl], rfl, rfl, rfl⟩

theorem run_append (e : Env) (s : State c f) (as bs : List Act) :
    run c f e s (as ++ bs) = run c f e (run c f e s as) bs := List.foldl_append

/-! ### C131 -/

/-- C131: however the steps of the tasks interleave, no broadcast is given to the application more often than it has
been forgotten, and once more. -/
theorem C131_once (e : Env) (as : List Act) (bid : Bytes) :
    (history c f e as).countP (Event.isDelivered bid) ≤ (history c f e as).countP (Event.isForgotten bid) + 1 := by
  have h := (run_bounded (c := c) (f := f) e bid as).1
  unfold given times known at h
  unfold history
  have : (if ((run c f e (State.init c f) as).shared.owned.get bid).isSome = true then 1 else 0) ≤ 1 := by
    split <;> omega
  omega

/-- C131: the same for passing on an ordinary broadcast. -/
theorem C131_passed (e : Env) (as : List Act) (bid : Bytes) :
    (history c f e as).countP (Event.isPassed bid) ≤ (history c f e as).countP (Event.isForgotten bid) + 1 := by
  have h := (run_bounded (c := c) (f := f) e bid as).2
  unfold passing times known at h
  unfold history
  have : (if ((run c f e (State.init c f) as).shared.owned.get bid).isSome = true then 1 else 0) ≤ 1 := by
    split <;> omega
  omega

/-- C131: however the steps interleave, what is given to the application comes from an ordinary broadcast that has come
with a valid signature, or was decoded from symbols that have come, each signed by the source named for this very
broadcast. -/
theorem C131_authentic (e : Env) (as : List Act) (bid : Bytes) (d : Delivery)
    (h : Event.delivered bid d ∈ history c f e as) : FromOrdinary c e as bid d ∨ FromFec c f e as bid d :=
  (CInv.run as (fun _ h => h) (CInv.init (c := c) (f := f) e as)).log bid d h

/-- C131: a call that is not interrupted does what the one step of `OverlayBroadcast` does, so what is proved there
holds for calls that do not overlap. -/
theorem C131_alone (e : Env) (s : State c f) (call : Call) :
    ∃ evs, run c f e s (call.spawn :: List.replicate 6 (.thread s.threads.length)) =
        ⟨(Overlay.step c f e s.shared call.action).1, s.threads ++ [.done], s.log ++ evs⟩ ∧
      evs.filterMap Event.given = (Overlay.step c f e s.shared call.action).2.delivered.toList ∧
      evs.any Event.sent = (Overlay.step c f e s.shared call.action).2.forwarded ∧
      evs.contains .failed = (Overlay.step c f e s.shared call.action).2.failed := by
  obtain ⟨evs, h1, h2⟩ := alone_call e s.shared call
  refine ⟨evs, ?_, h2⟩
  have h3 : step c f e s call.spawn = ⟨s.shared, s.threads ++ [call.thread], s.log⟩ := by cases call <;> rfl
  have h4 := run_alone e 6 s.shared s.threads call.thread s.log
  rw [h1] at h4
  unfold run at h4 ⊢
  rw [List.foldl_cons, h3]
  exact h4

/-- C131: every run of `OverlayBroadcast` is one of these. -/
theorem C131_includes (e : Env) (as : List Action) :
    ∃ bs, (run c f e (State.init c f) bs).shared = Overlay.run c f e (Overlay.State.init c f) as ∧
      (history c f e bs).filterMap Event.given = deliveries e (Overlay.State.init c f) as := by
  have key : ∀ (as : List Action) (s : State c f), (∀ th ∈ s.threads, th = .done) →
      ∃ bs, (run c f e s bs).shared = Overlay.run c f e s.shared as ∧
        (run c f e s bs).log.filterMap Event.given = s.log.filterMap Event.given ++ deliveries e s.shared as := by
    intro as
    induction as with
    | nil => intro s _; exact ⟨[], rfl, by simp [run, deliveries]⟩
    | cons a as ih =>
      intro s hs
      have next : ∀ bs, (∀ th ∈ (run c f e s bs).threads, th = .done) →
          (run c f e s bs).shared = (Overlay.step c f e s.shared a).1 →
          (run c f e s bs).log.filterMap Event.given =
            s.log.filterMap Event.given ++ (Overlay.step c f e s.shared a).2.delivered.toList →
          ∃ bs, (run c f e s bs).shared = Overlay.run c f e s.shared (a :: as) ∧
            (run c f e s bs).log.filterMap Event.given =
              s.log.filterMap Event.given ++ deliveries e s.shared (a :: as) := by
        intro bs h1 h2 h3
        obtain ⟨bs', h4, h5⟩ := ih _ h1
        refine ⟨bs ++ bs', ?_, ?_⟩
        · rw [run_append, h4, h2]; rfl
        · rw [run_append, h5, h3, h2]; simp only [deliveries, List.append_assoc]
      have call : ∀ call : Call, call.action = a → ∃ bs, (run c f e s bs).shared = Overlay.run c f e s.shared (a :: as) ∧
            (run c f e s bs).log.filterMap Event.given =
              s.log.filterMap Event.given ++ deliveries e s.shared (a :: as) := by
        intro call hc
        subst hc
        obtain ⟨evs, h1, h2, _⟩ := C131_alone e s call
        refine next _ ?_ (by rw [h1]) ?_
        · rw [h1]
          intro th hth
          rcases List.mem_append.mp hth with hth | hth
          · exact hs th hth
          · simpa using hth
        · rw [h1]
          simp only [List.filterMap_append, h2]
      cases a with
      | ordinary now b => exact call (.ordinary now b) rfl
      | fec now b => exact call (.fec now b) rfl
      | own bid => exact call (.own bid) rfl
      | task i =>
        have hnone : s.threads.any (fun th => th.holds == some i) = false := by
          rw [List.any_eq_false]
          intro th hth
          rw [hs th hth]
          simp [Thread.holds]
        cases ht : s.shared.transfers[i]? with
        | none =>
          have h1 : run c f e s [.task i] = s := by simp [run, step, receiverStep, ht]
          refine next [.task i] (by rw [h1]; exact hs) ?_ ?_
          · rw [h1]; simp [Overlay.step, taskStep, ht]
          · rw [h1]; simp [Overlay.step, taskStep, ht]
        | some t =>
          have h1 : run c f e s [.task i] = ⟨(taskStep c f e s.shared i).1, s.threads,
              s.log ++ ((taskStep c f e s.shared i).2.delivered.map (Event.delivered t.bid)).toList⟩ := by
            simp [run, step, receiverStep, ht, hnone]
          refine next [.task i] (by rw [h1]; exact hs) (by rw [h1]; rfl) ?_
          rw [h1]
          simp only [List.filterMap_append, Overlay.step]
          cases (taskStep c f e s.shared i).2.delivered <;> rfl
      | mark i => exact next [.mark i] hs rfl (by simp [run, step, Overlay.step])
      | cleanup i => exact next [.cleanup i] hs rfl (by simp [run, step, Overlay.step])
      | tick ms => exact next [.tick ms] hs rfl (by simp [run, step, Overlay.step])
      | expire i =>
        refine next [.expire i] hs rfl ?_
        simp only [run, step, List.foldl_cons, List.foldl_nil, Overlay.step]
        split
        · simp
        · split <;> simp
      | push i =>
        refine next [.push i] hs rfl ?_
        simp only [run, step, List.foldl_cons, List.foldl_nil, Overlay.step]
        split <;> simp
      | gcCheck =>
        refine next [.gcCheck] hs rfl ?_
        simp only [run, step, List.foldl_cons, List.foldl_nil, Overlay.step]
        split <;> simp
      | gcPop =>
        refine next [.gcPop] hs rfl ?_
        have h1 : (forgets c f s.shared).filterMap Event.given = [] := by
          unfold forgets
          split
          · split
            · rfl
            · split <;> rfl
          · rfl
        simp only [run, step, List.foldl_cons, List.foldl_nil, Overlay.step, List.filterMap_append, h1]
        split
        · split <;> rfl
        · rfl
      | gcSub =>
        refine next [.gcSub] hs rfl ?_
        simp only [run, step, List.foldl_cons, List.foldl_nil, Overlay.step]
        split <;> simp
  obtain ⟨bs, h1, h2⟩ := key as (State.init c f) (fun _ h => absurd h List.not_mem_nil)
  exact ⟨bs, h1, by simpa [State.init, history] using h2⟩

/-! ### Examples -/

/-- Two copies of an ordinary broadcast handled at once, with interleaved steps. -/
def raceOrdinary : List Act :=
  [.ordinary 100 sampleOrdinary, .ordinary 100 sampleOrdinary, .thread 1, .thread 0, .thread 1, .thread 0, .thread 1,
    .thread 1]

/-- Two copies of the only packet of an FEC broadcast handled at once; the receiving task runs when both are past the
check of the completed flag. -/
def raceFec : List Act :=
  [.fec 100 samplePart, .fec 100 samplePart, .thread 1, .thread 0, .thread 0, .thread 1, .thread 1, .thread 0, .thread 1,
    .thread 1, .task 0, .thread 1]

theorem raceOrdinary_history : ∃ bid, history Crypto.toy Fec.toy sampleEnv raceOrdinary =
    [.delivered bid ⟨1, [1], Node.shortId Crypto.toy (5 : UInt8)⟩, .passed bid] :=
  ⟨Crypto.toy.sha (ordinaryText Crypto.toy.sha (List.replicate 32 0) [1] 100), by decide +kernel⟩

theorem raceFec_history : history Crypto.toy Fec.toy sampleEnv raceFec =
    [.delivered (Crypto.toy.sha [7]) ⟨1, [7], Node.shortId Crypto.toy (5 : UInt8)⟩, .passedPart samplePart] := by
  decide +kernel

-- C131_once: delivered once though two copies were handled at once
example : ∃ bid, (history Crypto.toy Fec.toy sampleEnv raceOrdinary).countP (Event.isDelivered bid) = 1 ∧
    (history Crypto.toy Fec.toy sampleEnv raceOrdinary).countP (Event.isDelivered bid) ≤
      (history Crypto.toy Fec.toy sampleEnv raceOrdinary).countP (Event.isForgotten bid) + 1 := by
  obtain ⟨bid, h⟩ := raceOrdinary_history
  exact ⟨bid, by rw [h]; simp [Event.isDelivered], C131_once _ _ _⟩

-- C131_passed
example : ∃ bid, (history Crypto.toy Fec.toy sampleEnv raceOrdinary).countP (Event.isPassed bid) = 1 ∧
    (history Crypto.toy Fec.toy sampleEnv raceOrdinary).countP (Event.isPassed bid) ≤
      (history Crypto.toy Fec.toy sampleEnv raceOrdinary).countP (Event.isForgotten bid) + 1 := by
  obtain ⟨bid, h⟩ := raceOrdinary_history
  exact ⟨bid, by rw [h]; simp [Event.isPassed], C131_passed _ _ _⟩

-- C131_authentic: the FEC broadcast and the ordinary one
example := C131_authentic sampleEnv raceFec (Crypto.toy.sha [7]) ⟨1, [7], Node.shortId Crypto.toy (5 : UInt8)⟩
  (by rw [raceFec_history]; simp)

example : ∃ bid, FromOrdinary Crypto.toy sampleEnv raceOrdinary bid ⟨1, [1], Node.shortId Crypto.toy (5 : UInt8)⟩ ∨
    FromFec Crypto.toy Fec.toy sampleEnv raceOrdinary bid ⟨1, [1], Node.shortId Crypto.toy (5 : UInt8)⟩ := by
  obtain ⟨bid, h⟩ := raceOrdinary_history
  exact ⟨bid, C131_authentic _ _ bid _ (by rw [h]; simp)⟩

-- C131_alone: a call while another one is under way
example := C131_alone sampleEnv (run Crypto.toy Fec.toy sampleEnv (State.init Crypto.toy Fec.toy)
  [.ordinary 100 sampleOrdinary, .thread 0]) (.fec 100 samplePart)

-- C131_includes: a run that delivers
example := C131_includes (c := Crypto.toy) (f := Fec.toy) sampleEnv [.fec 100 samplePart, .task 0]

end Verif.Overlay.Conc
