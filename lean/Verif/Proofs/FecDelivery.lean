import Verif.Model.BroadcastSend
import Verif.Proofs.OverlayFec
import Verif.Proofs.Encryption
import Verif.Proofs.RldpTransfer
import Verif.Props.Replay
import Verif.Props.OverlayFec
import Verif.Props.BroadcastSend

/-!
# An FEC broadcast on its way through a receiver
-/
namespace Verif.Overlay
open Verif.AdnlProto Verif.Rldp

variable {c : Crypto} {f : Fec}

/-! ### Steps that do not concern a broadcast -/

/-- No clean-up of the broadcast is under way. -/
def Off (bid : Bytes) (s : State c f) : Prop :=
  (∀ d, (bid, d) ∉ s.timers) ∧ bid ∉ s.counted ∧ bid ∉ s.queue

/-- What stays the same for a broadcast. -/
structure Apart (bid : Bytes) (s s' : State c f) : Prop where
  owned : s'.owned.get bid = s.owned.get bid
  fwd : ∀ (j : Nat) (u : Transfer c f), s.transfers[j]? = some u → u.bid = bid → s'.transfers[j]? = some u
  bwd : ∀ (j : Nat) (u : Transfer c f), s'.transfers[j]? = some u → u.bid = bid → s.transfers[j]? = some u
  clean : (∀ d, (bid, d) ∉ s.cleanups) → ∀ d, (bid, d) ∉ s'.cleanups
  off : Off bid s'

/-- The step is about something else. -/
def Elsewhere (e : Env) (bid : Bytes) (s : State c f) : Action → Prop
  | .ordinary now b => ∀ d src, checkOrdinary c e now b ≠ .ok bid d src
  | .fec _ b => b.dataHash ≠ bid
  | .own x => x ≠ bid
  | .task i => ∀ t, s.transfers[i]? = some t → t.bid ≠ bid
  | .mark i => ∀ t, s.transfers[i]? = some t → t.bid ≠ bid
  | .cleanup i => ∀ d, s.cleanups[i]? ≠ some (bid, d)
  | _ => True

theorem Apart.refl {bid : Bytes} {s : State c f} (h : Off bid s) : Apart bid s s :=
  ⟨rfl, fun _ _ h _ => h, fun _ _ h _ => h, fun h => h, h⟩

theorem apart_set {bid : Bytes} {s : State c f} (h : Off bid s) {i : Nat} {t t' : Transfer c f}
    (ht : s.transfers[i]? = some t) (hb : t.bid ≠ bid) (hb' : t'.bid = t.bid) :
    Apart bid s { s with transfers := s.transfers.set i t' } := by
  have hi : i < s.transfers.length := (List.getElem?_eq_some_iff.mp ht).1
  refine ⟨rfl, ?_, ?_, fun h => h, h⟩
  · intro j u hu hub
    have hij : i ≠ j := by
      rintro rfl
      rw [ht] at hu; cases hu; exact hb hub
    simp only [List.getElem?_set, hij, if_false]
    exact hu
  · intro j u hu hub
    simp only [List.getElem?_set] at hu
    by_cases hij : i = j
    · subst hij
      simp only [if_true, hi] at hu
      cases hu
      exact absurd (hb'.symm.trans hub) hb
    · simp only [hij, if_false] at hu
      exact hu

theorem Apart.trans {bid : Bytes} {s s' s'' : State c f} (h : Apart bid s s') (h' : Apart bid s' s'') :
    Apart bid s s'' :=
  ⟨h'.owned.trans h.owned, fun j u h1 h2 => h'.fwd j u (h.fwd j u h1 h2) h2,
    fun j u h1 h2 => h.bwd j u (h'.bwd j u h1 h2) h2, fun h1 => h'.clean (h.clean h1), h'.off⟩

theorem off_spawn {bid x : Bytes} {s : State c f} {e : Env} (h : Off bid s) (hx : x ≠ bid) :
    Off bid (s.spawnGc e x) := by
  refine ⟨?_, h.2⟩
  intro d hd
  simp only [State.spawnGc, List.mem_append, List.mem_singleton, Prod.mk.injEq] at hd
  rcases hd with hd | hd
  · exact h.1 d hd
  · exact hx hd.1.symm

theorem apart_put {bid x : Bytes} {s : State c f} {e : Env} (h : Off bid s) (hx : x ≠ bid) :
    Apart bid s ({ s with owned := s.owned.put x .other }.spawnGc e x) := by
  refine ⟨?_, fun _ _ h _ => h, fun _ _ h _ => h, fun h => h, off_spawn h hx⟩
  show (s.owned.put x .other).get bid = _
  exact AMap.get_put_ne _ _ (Ne.symm hx)

theorem apart_new {bid : Bytes} {s : State c f} {e : Env} {b : FecPart} {src : Bytes} (h : Off bid s)
    (hb : b.dataHash ≠ bid) : Apart bid s (newTransfer c f e s b src) := by
  refine ⟨?_, ?_, ?_, ?_, h⟩
  · exact AMap.get_put_ne _ _ (Ne.symm hb)
  · intro j u hu _
    simp only [newTransfer]
    rw [List.getElem?_append_left (List.getElem?_eq_some_iff.mp hu).1]
    exact hu
  · intro j u hu hub
    simp only [newTransfer] at hu
    rcases Nat.lt_or_ge j s.transfers.length with hj | hj
    · rw [List.getElem?_append_left hj] at hu; exact hu
    · rw [List.getElem?_append_right hj] at hu
      have := List.mem_of_getElem? hu
      simp only [List.mem_singleton] at this
      subst this
      exact absurd hub hb
  · intro hcl d hd
    simp only [newTransfer, List.mem_append, List.mem_singleton, Prod.mk.injEq] at hd
    rcases hd with hd | hd
    · exact hcl d hd
    · exact hb hd.1.symm

theorem apart_feed {bid : Bytes} {s : State c f} (h : Off bid s) {i : Nat} {t : Transfer c f}
    (ht : s.transfers[i]? = some t) (hb : t.bid ≠ bid) (pub : c.Pub) (src : Bytes) (b : FecPart) :
    Apart bid s (Overlay.feed c f s i t pub src b).1 := by
  unfold Overlay.feed
  simp only
  split
  · exact apart_set h ht hb rfl
  · split
    · exact apart_set h ht hb rfl
    · split
      · exact apart_set h ht hb rfl
      · split
        · exact apart_set h ht hb rfl
        · exact apart_set h ht hb rfl

theorem apart_step {e : Env} {bid : Bytes} {s : State c f} (hF : FInv s) (h : Off bid s) (a : Action)
    (ha : Elsewhere e bid s a) : Apart bid s (step c f e s a).1 := by
  cases a with
  | tick ms => exact ⟨rfl, fun _ _ h _ => h, fun _ _ h _ => h, fun h => h, h⟩
  | ordinary now b =>
    simp only [step, receiveOrdinary]
    cases hc : checkOrdinary c e now b with
    | outdated => exact Apart.refl h
    | failed => exact Apart.refl h
    | ok x d src =>
      simp only
      have hx : x ≠ bid := by rintro rfl; exact ha d src hc
      split
      · exact Apart.refl h
      · exact apart_put h hx
  | fec now b =>
    simp only [Elsewhere] at ha
    simp only [step, receiveFec]
    split
    · exact Apart.refl h
    · exact Apart.refl h
    · split
      · exact Apart.refl h
      · split
        · exact Apart.refl h
        · next pub _ _ =>
          have hs : FInv (if (s.owned.get b.dataHash).isNone = true then
                newTransfer c f e s b (Node.shortId c pub) else s) ∧
              Apart bid s (if (s.owned.get b.dataHash).isNone = true then
                newTransfer c f e s b (Node.shortId c pub) else s) := by
            split
            · exact ⟨newTransfer_inv hF b _, apart_new h ha⟩
            · exact ⟨hF, Apart.refl h⟩
          generalize (if (s.owned.get b.dataHash).isNone = true then
                newTransfer c f e s b (Node.shortId c pub) else s) = s' at hs ⊢
          split
          · next i hi =>
            obtain ⟨t, ht, hb⟩ := hs.1.entry _ _ hi
            rw [ht]
            exact hs.2.trans (apart_feed hs.2.off ht (by rw [hb]; exact ha) pub _ b)
          · exact hs.2
  | own x =>
    simp only [step, createOwn]
    split
    · exact Apart.refl h
    · exact apart_put h ha
  | task i =>
    simp only [step, taskStep]
    cases ht : s.transfers[i]? with
    | none => exact Apart.refl h
    | some t =>
      have hb : t.bid ≠ bid := ha t ht
      simp only
      split
      · exact Apart.refl h
      · split
        · split
          · exact Apart.refl h
          · exact apart_set h ht hb rfl
        · split
          · exact apart_set h ht hb rfl
          · exact apart_set h ht hb rfl
          · exact apart_set h ht hb rfl
  | mark i =>
    simp only [step, markStep]
    cases ht : s.transfers[i]? with
    | none => exact Apart.refl h
    | some t =>
      have hb : t.bid ≠ bid := ha t ht
      simp only
      split
      · exact Apart.refl h
      · have h1 : Apart bid s { s with transfers := s.transfers.set i { t with phase := .ended } } :=
          apart_set h ht hb rfl
        have h2 : FInv { s with transfers := s.transfers.set i { t with phase := .ended } } :=
          hF.setT (t' := { t with phase := .ended }) ht rfl
            ((hF.trs t (List.mem_of_getElem? ht)).congr rfl rfl rfl rfl)
        split
        · next j hj =>
          split
          · next u hu =>
            obtain ⟨u', hu', hub⟩ := h2.entry _ _ hj
            rw [hu] at hu'
            cases hu'
            exact h1.trans (apart_set h1.off hu (by rw [hub]; exact hb) rfl)
          · exact h1
        · exact h1
  | cleanup i =>
    simp only [step, cleanupStep]
    cases hc : s.cleanups[i]? with
    | none => exact Apart.refl h
    | some p =>
      obtain ⟨x, due⟩ := p
      have hx : x ≠ bid := by rintro rfl; exact ha due hc
      simp only
      split
      · exact Apart.refl h
      · split
        · refine ⟨rfl, fun _ _ h _ => h, fun _ _ h _ => h, ?_, h⟩
          intro hcl d hd
          rcases mem_set hd with hd | hd
          · exact hcl d hd
          · simp only [Prod.mk.injEq] at hd; exact hx hd.1.symm
        · refine ⟨rfl, fun _ _ h _ => h, fun _ _ h _ => h, ?_, off_spawn h hx⟩
          intro hcl d hd
          exact hcl d (mem_eraseIdx hd)
  | expire i =>
    simp only [step]
    split
    · exact Apart.refl h
    · next x due hi =>
      split
      · exact Apart.refl h
      · refine ⟨rfl, fun _ _ h _ => h, fun _ _ h _ => h, fun h => h, ?_, ?_, h.2.2⟩
        · intro d hd; exact h.1 d (mem_eraseIdx hd)
        · intro hd
          rcases List.mem_append.mp hd with hd | hd
          · exact h.2.1 hd
          · simp only [List.mem_singleton] at hd
            exact h.1 due (hd ▸ List.mem_of_getElem? hi)
  | push i =>
    simp only [step]
    split
    · exact Apart.refl h
    · next x hi =>
      refine ⟨rfl, fun _ _ h _ => h, fun _ _ h _ => h, fun h => h, h.1, ?_, ?_⟩
      · intro hd; exact h.2.1 (mem_eraseIdx hd)
      · intro hd
        rcases List.mem_append.mp hd with hd | hd
        · exact h.2.2 hd
        · simp only [List.mem_singleton] at hd
          exact h.2.1 (hd ▸ List.mem_of_getElem? hi)
  | gcCheck =>
    simp only [step]
    split
    · exact ⟨rfl, fun _ _ h _ => h, fun _ _ h _ => h, fun h => h, h⟩
    · exact Apart.refl h
  | gcPop =>
    simp only [step]
    split
    · split
      · exact ⟨rfl, fun _ _ h _ => h, fun _ _ h _ => h, fun h => h, h⟩
      · next x rest hq =>
        have h3 := h.2.2
        rw [hq] at h3
        simp only [List.mem_cons, not_or] at h3
        refine ⟨?_, fun _ _ h _ => h, fun _ _ h _ => h, fun h => h, h.1, h.2.1, h3.2⟩
        simp only [AMap.get_erase]
        rw [if_neg]
        exact h3.1
    · exact Apart.refl h
  | gcSub =>
    simp only [step]
    split
    · exact ⟨rfl, fun _ _ h _ => h, fun _ _ h _ => h, fun h => h, h⟩
    · exact Apart.refl h

theorem clock_step (e : Env) (s : State c f) (a : Action) : s.clock ≤ (step c f e s a).1.clock := by
  have := step_eff e s a
  have h : ∀ {v v' : View}, Eff e v v' → v.clock ≤ v'.clock := by
    intro v v' h
    cases h <;> first | assumption | exact Nat.le_refl _
  exact h this

theorem clock_run (e : Env) (as : List Action) : ∀ (s : State c f), s.clock ≤ (run c f e s as).clock := by
  induction as with
  | nil => intro s; exact Nat.le_refl _
  | cons a as ih => intro s; exact Nat.le_trans (clock_step e s a) (ih _)

/-! ### The packets of one sender -/

/-- What is delivered: the data, or something else with the same hash; from the sender. -/
def Right (c : Crypto) (sec : c.Sec) (data : Bytes) (d : Delivery) : Prop :=
  c.sha d.data = c.sha data ∧ d.source = Node.shortId c (c.pubOf sec)

/-- Everything that arrives for the broadcast comes from the sender, and nothing else goes by its name. -/
def Honest (c : Crypto) (f : Fec) (e : Env) (sec : c.Sec) (bid p : Bytes) : Action → Prop
  | .ordinary now b => ∀ d src, checkOrdinary c e now b ≠ .ok bid d src
  | .fec _ b => b.dataHash = bid → ∃ n date, b = fecPartOf c f sec bid p n date
  | .own x => x ≠ bid
  | _ => True

/-- The number of the symbol of the broadcast that arrives in date, if one does. -/
def arrival (e : Env) (bid : Bytes) : Action → Option Nat
  | .fec now b => if b.dataHash = bid ∧ isOutdated e b.date now = some false then some b.seqno else none
  | _ => none

theorem processFec_own (hc : c.Lawful) {z : Zstd} (sec : c.Sec) (data p : Bytes) (n date : Nat) (dec : f.Dec)
    (hp : p = data ∨ decompress z p = some data) :
    (∀ dec', f.decode dec n (f.symbol p n) = (dec', none) →
      processFec c f z dec (c.pubOf sec) (fecPartOf c f sec (c.sha data) p n date) = (dec', .more)) ∧
    (∀ dec', f.decode dec n (f.symbol p n) = (dec', some p) →
      ∃ d, processFec c f z dec (c.pubOf sec) (fecPartOf c f sec (c.sha data) p n date) = (dec', .done d) ∧
        c.sha d = c.sha data) := by
  have hv : Storage.verifySig c (c.pubOf sec) (fecToSign c.sha (fecPartOf c f sec (c.sha data) p n date).dataHash
      (fecPartOf c f sec (c.sha data) p n date).dataSize (fecPartOf c f sec (c.sha data) p n date).date
      (fecPartOf c f sec (c.sha data) p n date).flags (fecPartOf c f sec (c.sha data) p n date).fec
      (fecPartOf c f sec (c.sha data) p n date).data (fecPartOf c f sec (c.sha data) p n date).seqno
      (if sourceMatters (fecPartOf c f sec (c.sha data) p n date).flags then some (Node.shortId c (c.pubOf sec))
        else none)) (fecPartOf c f sec (c.sha data) p n date).signature = true := by
    have e1 : (if sourceMatters (fecPartOf c f sec (c.sha data) p n date).flags then
        some (Node.shortId c (c.pubOf sec)) else none) = none := rfl
    rw [e1]
    simp [Storage.verifySig, fecPartOf, hc.sign_length, hc.sign_verify]
  refine ⟨?_, ?_⟩
  · intro dec' hd
    unfold processFec
    rw [if_pos hv]
    have : f.decode dec (fecPartOf c f sec (c.sha data) p n date).seqno
        (fecPartOf c f sec (c.sha data) p n date).data = (dec', none) := hd
    rw [this]
  · intro dec' hd
    unfold processFec
    rw [if_pos hv]
    have : f.decode dec (fecPartOf c f sec (c.sha data) p n date).seqno
        (fecPartOf c f sec (c.sha data) p n date).data = (dec', some p) := hd
    rw [this]
    simp only
    rw [if_neg (show ¬ p.length ≠ (fecPartOf c f sec (c.sha data) p n date).dataSize from fun h => h rfl)]
    have e1 : (fecPartOf c f sec (c.sha data) p n date).dataHash = c.sha data := rfl
    rw [e1]
    rcases hp with rfl | hp
    · cases hx : decompress z p with
      | none => exact ⟨p, by simp, rfl⟩
      | some d =>
        simp only
        by_cases hh : c.sha d = c.sha p
        · exact ⟨d, by rw [if_pos hh], hh⟩
        · exact ⟨p, by rw [if_neg hh]; simp, rfl⟩
    · rw [hp]
      exact ⟨data, by simp, rfl⟩

/-- Nothing of the broadcast is at the receiver. -/
structure Unheard (bid : Bytes) (s : State c f) : Prop where
  none : s.owned.get bid = none
  no : ∀ (j : Nat) (u : Transfer c f), s.transfers[j]? = some u → u.bid ≠ bid
  clean : ∀ d, (bid, d) ∉ s.cleanups
  off : Off bid s

/-- The broadcast is being received: `got` are the numbers that came in date, `used` those given to the decoder,
`wait` those (with the dates) in the channel. -/
structure Going (sec : c.Sec) (bid p : Bytes) (t0 : Nat) (s : State c f) (got : List Nat) (i : Nat)
    (t : Transfer c f) (used : List Nat) (wait : List (Nat × Nat)) : Prop where
  entry : s.owned.get bid = some (.incoming i)
  tr : s.transfers[i]? = some t
  tbid : t.bid = bid
  source : t.source = Node.shortId c (c.pubOf sec)
  running : t.phase = .running
  ongoing : t.completed = false
  only : ∀ (j : Nat) (u : Transfer c f), s.transfers[j]? = some u → u.bid = bid → j = i
  since : t0 ≤ t.startedAt
  off : Off bid s
  hist : t.hist = PacketsHistory.run PacketsHistory.forRecv got
  dec : Rldp.feed f (f.new (f.params p)) (syms f p used) = .ok t.dec
  chan : t.chan = wait.map fun x => (c.pubOf sec, fecPartOf c f sec bid p x.1 x.2)
  all : ∀ n ∈ got, n ∈ used ∨ n ∈ wait.map (·.1)
  len : wait.length ≤ got.length

/-- Steps about something else do not matter. -/
theorem Going.apart {sec : c.Sec} {bid p : Bytes} {t0 : Nat} {s s' : State c f} {got : List Nat} {i : Nat}
    {t : Transfer c f} {used : List Nat} {wait : List (Nat × Nat)} (h : Going sec bid p t0 s got i t used wait)
    (ha : Apart bid s s') : Going sec bid p t0 s' got i t used wait :=
  { h with
    entry := ha.owned.trans h.entry
    tr := ha.fwd i t h.tr h.tbid
    only := fun j u h1 h2 => h.only j u (ha.bwd j u h1 h2) h2
    off := ha.off }

theorem Unheard.apart {bid : Bytes} {s s' : State c f} (h : Unheard bid s) (ha : Apart bid s s') : Unheard bid s' :=
  ⟨ha.owned.trans h.none, fun j u h1 h2 => h.no j u (ha.bwd j u h1 h2) h2, ha.clean h.clean, ha.off⟩

/-- The state of the broadcast at the receiver. -/
def Coming (sec : c.Sec) (bid p : Bytes) (t0 : Nat) (s : State c f) (got : List Nat) : Prop :=
  (Unheard bid s ∧ got = []) ∨ ∃ i t used wait, Going sec bid p t0 s got i t used wait

/-- Feeding a packet to the transfer. -/
theorem going_feed {sec : c.Sec} {bid p : Bytes} {t0 : Nat} {s : State c f} {got : List Nat} {i : Nat}
    {t : Transfer c f} {used : List Nat} {wait : List (Nat × Nat)} (h : Going sec bid p t0 s got i t used wait)
    (n date : Nat) :
    ∃ t' wait', Going sec bid p t0 (Overlay.feed c f s i t (c.pubOf sec) (Node.shortId c (c.pubOf sec))
      (fecPartOf c f sec bid p n date)).1 (got ++ [n]) i t' used wait' := by
  have hi : i < s.transfers.length := (List.getElem?_eq_some_iff.mp h.tr).1
  have setc : ∀ (t' : Transfer c f) (wait' : List (Nat × Nat)), t'.bid = t.bid → t'.source = t.source →
      t'.phase = t.phase → t'.completed = t.completed → t'.startedAt = t.startedAt → t'.dec = t.dec →
      t'.hist = PacketsHistory.run PacketsHistory.forRecv (got ++ [n]) →
      t'.chan = wait'.map (fun x => (c.pubOf sec, fecPartOf c f sec bid p x.1 x.2)) →
      (∀ m ∈ got ++ [n], m ∈ used ∨ m ∈ wait'.map (·.1)) → wait'.length ≤ (got ++ [n]).length →
      Going sec bid p t0 { s with transfers := s.transfers.set i t' } (got ++ [n]) i t' used wait' := by
    intro t' wait' e1 e2 e3 e4 e5 e6 e7 e8 e9 e10
    refine ⟨h.entry, by simp [hi], e1.trans h.tbid, e2.trans h.source, e3.trans h.running, e4.trans h.ongoing, ?_,
      by rw [e5]; exact h.since, h.off, e7, by rw [e6]; exact h.dec, e8, e9, e10⟩
    intro j u hu hub
    by_cases hij : i = j
    · exact hij.symm
    · simp only [List.getElem?_set, hij, if_false] at hu
      exact h.only j u hu hub
  have hrun : PacketsHistory.run PacketsHistory.forRecv (got ++ [n]) =
      (PacketsHistory.deliver t.hist n).1 := by
    rw [PacketsHistory.run_snoc, h.hist]
  unfold Overlay.feed
  simp only
  rw [if_neg (by rw [h.source]; exact fun hne => hne rfl)]
  have e0 : (fecPartOf c f sec bid p n date).seqno = n := rfl
  rw [e0]
  cases hd : PacketsHistory.deliver t.hist n with
  | mk hh ok =>
    rw [hd] at hrun
    cases ok with
    | false =>
      refine ⟨_, wait, setc _ wait rfl rfl rfl rfl rfl rfl hrun.symm h.chan ?_ ?_⟩
      · intro m hm
        rcases List.mem_append.mp hm with hm | hm
        · exact h.all m hm
        · simp only [List.mem_singleton] at hm
          subst hm
          by_contra hno
          have hn : m ∉ got := fun hx => hno (h.all m hx)
          have := Props.C02_fresh_number_accepted got m hn
          rw [← h.hist, hd] at this
          cases this
      · have := h.len; simp; omega
    | true =>
      simp only
      rw [if_neg (by rw [h.ongoing]; decide), if_neg (by rw [h.running]; decide)]
      refine ⟨_, wait ++ [(n, date)], setc _ (wait ++ [(n, date)]) rfl rfl rfl rfl rfl rfl hrun.symm ?_ ?_ ?_⟩
      · simp [h.chan]
      · intro m hm
        rcases List.mem_append.mp hm with hm | hm
        · rcases h.all m hm with h1 | h1
          · exact .inl h1
          · exact .inr (by simp only [List.map_append, List.mem_append]; exact .inl h1)
        · simp only [List.mem_singleton] at hm
          subst hm
          exact .inr (by simp)
      · have := h.len; simp; omega

/-- A turn of the receiving task: a delivery, or the next symbol goes to the decoder. -/
theorem going_task (hc : c.Lawful) (hf : f.Lawful) {e : Env} {sec : c.Sec} {data p : Bytes} {t0 : Nat}
    {s : State c f} {got : List Nat} {i : Nat} {t : Transfer c f} {used : List Nat} {wait : List (Nat × Nat)}
    (h : Going sec (c.sha data) p t0 s got i t used wait) (hp0 : p ≠ []) (hpl : p.length ≤ sliceLen)
    (hp : p = data ∨ decompress e.z p = some data) :
    (∃ d, (step c f e s (.task i)).2.delivered = some d ∧ Right c sec data d) ∨
    (wait = [] ∧ (step c f e s (.task i)).1 = s) ∨
    ∃ t' x wait', wait = x :: wait' ∧
      Going sec (c.sha data) p t0 (step c f e s (.task i)).1 got i t' (used ++ [x.1]) wait' := by
  have hi : i < s.transfers.length := (List.getElem?_eq_some_iff.mp h.tr).1
  simp only [step, taskStep, h.tr]
  rw [if_neg (by rw [h.running]; exact fun hne => hne rfl)]
  cases wait with
  | nil =>
    have hch : t.chan = [] := h.chan
    rw [hch]
    simp only
    rw [if_pos (by rw [h.tbid]; exact h.entry)]
    exact .inr (.inl ⟨trivial, rfl⟩)
  | cons x wait =>
    obtain ⟨n, date⟩ := x
    have hch : t.chan = (c.pubOf sec, fecPartOf c f sec (c.sha data) p n date) ::
        wait.map fun x => (c.pubOf sec, fecPartOf c f sec (c.sha data) p x.1 x.2) := h.chan
    rw [hch]
    simp only
    obtain ⟨k1, k2⟩ := processFec_own (f := f) hc (z := e.z) sec data p n date t.dec hp
    cases hd : f.decode t.dec n (f.symbol p n) with
    | mk dec' o =>
      cases o with
      | none =>
        rw [k1 dec' hd]
        right; right
        refine ⟨{ t with dec := dec', chan := wait.map fun x => (c.pubOf sec, fecPartOf c f sec (c.sha data) p x.1 x.2),
                         packets := t.packets + 1 }, (n, date), wait, rfl, h.entry, by simp [hi], h.tbid, h.source, h.running, h.ongoing, ?_,
          h.since, h.off, h.hist, ?_, rfl, ?_, ?_⟩
        · intro j u hu hub
          by_cases hij : i = j
          · exact hij.symm
          · simp only [List.getElem?_set, hij, if_false] at hu
            exact h.only j u hu hub
        · have e1 : syms f p (used ++ [n]) = syms f p used ++ [(n, f.symbol p n)] := by simp [syms]
          rw [e1, feed_append f _ _ h.dec]
          simp only [Rldp.feed, hd]
        · intro m hm
          rcases h.all m hm with h1 | h1
          · exact .inl (List.mem_append_left _ h1)
          · simp only [List.map_cons, List.mem_cons] at h1
            rcases h1 with h1 | h1
            · exact .inl (by rw [h1]; simp)
            · exact .inr h1
        · have := h.len; simp at this; omega
      | some r =>
        have hr : r = p := by
          refine hf.sound p hp0 hpl (used ++ [n]) r ?_
          have e1 : syms f p (used ++ [n]) = syms f p used ++ [(n, f.symbol p n)] := by simp [syms]
          rw [e1, feed_append f _ _ h.dec]
          simp only [Rldp.feed, hd]
        subst hr
        obtain ⟨d, h1, h2⟩ := k2 dec' hd
        rw [h1]
        exact .inl ⟨_, rfl, h2, h.source⟩

/-- One step of an arbitrary run: a delivery, or the broadcast goes on. -/
theorem coming_step (hc : c.Lawful) (hf : f.Lawful) {e : Env} {sec : c.Sec} {data p : Bytes} {t0 : Nat}
    {s : State c f} {got : List Nat} (hF : FInv s) (h : Coming sec (c.sha data) p t0 s got) (hp0 : p ≠ [])
    (hpl : p.length ≤ sliceLen) (hp : p = data ∨ decompress e.z p = some data) (a : Action)
    (ha : Honest c f e sec (c.sha data) p a) (ht0 : t0 ≤ s.clock)
    (hclock : s.clock < t0 + 1000 * e.timeout) :
    (∃ i d, a = .task i ∧ (step c f e s a).2.delivered = some d ∧ Right c sec data d) ∨
    Coming sec (c.sha data) p t0 (step c f e s a).1 (got ++ (arrival e (c.sha data) a).toList) := by
  have quiet : Elsewhere e (c.sha data) s a → arrival e (c.sha data) a = none →
      Coming sec (c.sha data) p t0 (step c f e s a).1 (got ++ (arrival e (c.sha data) a).toList) := by
    intro hel harr
    rw [harr]
    simp only [Option.toList_none, List.append_nil]
    rcases h with ⟨h, hg⟩ | ⟨i, t, used, wait, h⟩
    · exact .inl ⟨h.apart (apart_step hF h.off a hel), hg⟩
    · exact .inr ⟨i, t, used, wait, h.apart (apart_step hF h.off a hel)⟩
  have unchanged : (step c f e s a).1 = s → arrival e (c.sha data) a = none →
      Coming sec (c.sha data) p t0 (step c f e s a).1 (got ++ (arrival e (c.sha data) a).toList) := by
    intro hs harr
    rw [hs, harr]
    simpa using h
  cases a with
  | tick ms => exact .inr (quiet trivial rfl)
  | ordinary now b => exact .inr (quiet ha rfl)
  | own x => exact .inr (quiet ha rfl)
  | expire i => exact .inr (quiet trivial rfl)
  | push i => exact .inr (quiet trivial rfl)
  | gcCheck => exact .inr (quiet trivial rfl)
  | gcPop => exact .inr (quiet trivial rfl)
  | gcSub => exact .inr (quiet trivial rfl)
  | fec now b =>
    by_cases hb : b.dataHash = c.sha data
    · obtain ⟨n, date, rfl⟩ := ha hb
      cases ho : isOutdated e date now with
      | none =>
        refine .inr (unchanged ?_ ?_)
        · simp only [step, receiveFec, fecPartOf, ho]
        · simp [arrival, fecPartOf, ho]
      | some out =>
        cases out with
        | true =>
          refine .inr (unchanged ?_ ?_)
          · simp only [step, receiveFec, fecPartOf, ho]
          · simp [arrival, fecPartOf, ho]
        | false =>
          have harr : arrival e (c.sha data) (.fec now (fecPartOf c f sec (c.sha data) p n date)) = some n := by
            simp [arrival, fecPartOf, ho]
          rw [harr]
          simp only [Option.toList_some]
          have hfull : Receiver.fullId c (fecPartOf c f sec (c.sha data) p n date).src = some (c.pubOf sec) := by
            simp [fecPartOf, Receiver.fullId, hc.decode_pub]
          have hsig : ¬ (fecPartOf c f sec (c.sha data) p n date).signature.length ≠ 64 := by
            simp [fecPartOf, hc.sign_length]
          have hdate : (fecPartOf c f sec (c.sha data) p n date).date = date := rfl
          have hhash : (fecPartOf c f sec (c.sha data) p n date).dataHash = c.sha data := rfl
          simp only [step, receiveFec]
          rw [hdate, ho]
          simp only [hfull]
          rw [if_neg hsig, hhash]
          right
          rcases h with ⟨h, rfl⟩ | ⟨i, t, used, wait, h⟩
          · rw [h.none]
            simp only [Option.isNone_none, if_true]
            have hg : Going sec (c.sha data) p t0 (newTransfer c f e s (fecPartOf c f sec (c.sha data) p n date)
                (Node.shortId c (c.pubOf sec))) [] s.transfers.length
                ⟨c.sha data, Node.shortId c (c.pubOf sec), PacketsHistory.forRecv, [], false, s.clock, 0,
                  f.new (f.params p), 0, .running⟩ [] [] := by
              refine ⟨by simp [newTransfer, fecPartOf], ?_, rfl, rfl, rfl, rfl, ?_, ht0, h.off, rfl, rfl, rfl,
                fun m hm => absurd hm List.not_mem_nil, Nat.le_refl _⟩
              · simp only [newTransfer]
                rw [List.getElem?_append_right (Nat.le_refl _)]
                simp [fecPartOf]
              · intro j u hu hub
                simp only [newTransfer] at hu
                rcases Nat.lt_or_ge j s.transfers.length with hj | hj
                · rw [List.getElem?_append_left hj] at hu
                  exact absurd hub (h.no j u hu)
                · rw [List.getElem?_append_right hj] at hu
                  have := (List.getElem?_eq_some_iff.mp hu).1
                  simp only [List.length_singleton] at this
                  omega
            rw [hg.entry]
            simp only
            rw [hg.tr]
            obtain ⟨t', wait', h'⟩ := going_feed hg n date
            exact .inr ⟨_, t', [], wait', h'⟩
          · rw [h.entry]
            simp only [Option.isNone_some, Bool.false_eq_true, if_false]
            rw [h.entry]
            simp only
            rw [h.tr]
            obtain ⟨t', wait', h'⟩ := going_feed h n date
            exact .inr ⟨i, t', used, wait', h'⟩
    · exact .inr (quiet hb (by simp [arrival, hb]))
  | task j =>
    rcases h with ⟨h, hg⟩ | ⟨i, t, used, wait, h⟩
    · exact .inr (quiet (fun u hu => h.no j u hu) rfl)
    · by_cases hij : j = i
      · subst hij
        rcases going_task hc hf h hp0 hpl hp with h1 | ⟨_, h1⟩ | ⟨t', x, wait', _, h1⟩
        · exact .inl ⟨j, h1.choose, rfl, h1.choose_spec⟩
        · exact .inr (unchanged h1 rfl)
        · refine .inr (.inr ⟨j, t', used ++ [x.1], wait', ?_⟩)
          simpa [arrival] using h1
      · exact .inr (quiet (fun u hu hub => hij (h.only j u hu hub)) rfl)
  | mark j =>
    rcases h with ⟨h, hg⟩ | ⟨i, t, used, wait, h⟩
    · exact .inr (quiet (fun u hu => h.no j u hu) rfl)
    · by_cases hij : j = i
      · subst hij
        refine .inr (unchanged ?_ rfl)
        simp only [step, markStep, h.tr]
        rw [if_pos (by rw [h.running]; decide)]
      · exact .inr (quiet (fun u hu hub => hij (h.only j u hu hub)) rfl)
  | cleanup j =>
    rcases h with ⟨h, hg⟩ | ⟨i, t, used, wait, h⟩
    · exact .inr (quiet (fun d hd => h.clean d (List.mem_of_getElem? hd)) rfl)
    · cases hcl : s.cleanups[j]? with
      | none => exact .inr (quiet (fun d hd => by rw [hcl] at hd; cases hd) rfl)
      | some x =>
        obtain ⟨y, due⟩ := x
        by_cases hy : y = c.sha data
        · subst hy
          refine .inr ?_
          simp only [arrival, Option.toList_none, List.append_nil]
          simp only [step, cleanupStep, hcl]
          split
          · exact .inr ⟨i, t, used, wait, h⟩
          · have hk : keepsWaiting c f e s (c.sha data) = true := by
              simp only [keepsWaiting, h.entry, h.tr, h.ongoing, Bool.not_false, Bool.true_and,
                Bool.not_eq_true', decide_eq_false_iff_not]
              have := h.since
              omega
            rw [if_pos hk]
            exact .inr ⟨i, t, used, wait, { h with }⟩
        · exact .inr (quiet (fun d hd => by rw [hcl] at hd; cases hd; exact hy rfl) rfl)

/-- A whole run. -/
theorem coming_trace (hc : c.Lawful) (hf : f.Lawful) {e : Env} {sec : c.Sec} {data p : Bytes} {t0 : Nat}
    (hp0 : p ≠ []) (hpl : p.length ≤ sliceLen) (hp : p = data ∨ decompress e.z p = some data) (as : List Action) :
    ∀ {s : State c f} {got : List Nat}, FInv s → Coming sec (c.sha data) p t0 s got → t0 ≤ s.clock →
      (run c f e s as).clock < t0 + 1000 * e.timeout → (∀ a ∈ as, Honest c f e sec (c.sha data) p a) →
      (∃ i o d, (.task i, o) ∈ trace c f e s as ∧ o.delivered = some d ∧ Right c sec data d) ∨
      Coming sec (c.sha data) p t0 (run c f e s as) (got ++ as.filterMap (arrival e (c.sha data))) := by
  induction as with
  | nil => intro s got _ h _ _ _; exact .inr (by simpa [run] using h)
  | cons a as ih =>
    intro s got hF h ht0 hclock ha
    have hlt : s.clock < t0 + 1000 * e.timeout :=
      Nat.lt_of_le_of_lt (Nat.le_trans (clock_step e s a) (clock_run e as _)) hclock
    rcases coming_step hc hf hF h hp0 hpl hp a (ha a List.mem_cons_self) ht0 hlt with
      ⟨i, d, rfl, h1, h2⟩ | h1
    · exact .inl ⟨i, _, d, List.mem_cons_self, h1, h2⟩
    · rcases ih (hF.step a) h1 (Nat.le_trans ht0 (clock_step e s a)) hclock
        (fun b hb => ha b (List.mem_cons_of_mem _ hb)) with ⟨i, o, d, h2, h3⟩ | h2
      · exact .inl ⟨i, o, d, List.mem_cons_of_mem _ h2, h3⟩
      · refine .inr ?_
        simp only [run]
        cases hx : arrival e (c.sha data) a with
        | none => rw [hx] at h2; rw [List.filterMap_cons_none hx]; simpa using h2
        | some n => rw [hx] at h2; rw [List.filterMap_cons_some hx]; simpa using h2

theorem trace_deliveries {e : Env} {x : Action} {o : Out} {d : Delivery} (hd : o.delivered = some d) (as : List Action) :
    ∀ {s : State c f}, (x, o) ∈ trace c f e s as → d ∈ deliveries e s as := by
  induction as with
  | nil => intro s h; exact absurd h List.not_mem_nil
  | cons a as ih =>
    intro s h
    simp only [trace, List.mem_cons, Prod.mk.injEq] at h
    simp only [deliveries, List.mem_append]
    rcases h with ⟨rfl, rfl⟩ | h
    · exact .inl (by simp [hd])
    · exact .inr (ih h)

/-- The same, for what is delivered. -/
theorem coming_run (hc : c.Lawful) (hf : f.Lawful) {e : Env} {sec : c.Sec} {data p : Bytes} {t0 : Nat}
    (hp0 : p ≠ []) (hpl : p.length ≤ sliceLen) (hp : p = data ∨ decompress e.z p = some data) (as : List Action)
    {s : State c f} {got : List Nat} (hF : FInv s) (h : Coming sec (c.sha data) p t0 s got) (ht0 : t0 ≤ s.clock)
    (hclock : (run c f e s as).clock < t0 + 1000 * e.timeout) (ha : ∀ a ∈ as, Honest c f e sec (c.sha data) p a) :
    (∃ d ∈ deliveries e s as, Right c sec data d) ∨
    Coming sec (c.sha data) p t0 (run c f e s as) (got ++ as.filterMap (arrival e (c.sha data))) := by
  rcases coming_trace hc hf hp0 hpl hp as hF h ht0 hclock ha with ⟨i, o, d, h1, h2, h3⟩ | h1
  · exact .inl ⟨d, trace_deliveries h2 as h1, h3⟩
  · exact .inr h1

/-- With all source symbols there, the task gets to the data. -/
theorem going_finish (hc : c.Lawful) (hf : f.Lawful) {e : Env} {sec : c.Sec} {data p : Bytes} {t0 : Nat}
    (hp0 : p ≠ []) (hpl : p.length ≤ sliceLen) (hp : p = data ∨ decompress e.z p = some data) (m : Nat) :
    ∀ {s : State c f} {got : List Nat} {i : Nat} {t : Transfer c f} {used : List Nat} {wait : List (Nat × Nat)},
      Going sec (c.sha data) p t0 s got i t used wait → (∀ n, n < f.count p → n ∈ got) → wait.length ≤ m →
      ∃ d ∈ deliveries e s (List.replicate m (.task i)), Right c sec data d := by
  have full : ∀ {s : State c f} {got : List Nat} {i : Nat} {t : Transfer c f} {used : List Nat},
      Going sec (c.sha data) p t0 s got i t used [] → (∀ n, n < f.count p → n ∈ got) → False := by
    intro s got i t used h hall
    obtain ⟨x, hx⟩ := hf.complete p hp0 hpl used (fun n hn => by
      rcases h.all n (hall n hn) with h1 | h1
      · exact h1
      · exact absurd h1 List.not_mem_nil)
    rw [h.dec] at hx
    cases hx
  induction m with
  | zero =>
    intro s got i t used wait h hall hw
    rw [List.length_eq_zero_iff.mp (Nat.le_zero.mp hw)] at h
    exact (full h hall).elim
  | succ m ih =>
    intro s got i t used wait h hall hw
    rcases going_task hc hf (e := e) h hp0 hpl hp with ⟨d, h1, h2⟩ | ⟨h1, _⟩ | ⟨t', x, wait', h1, h2⟩
    · refine ⟨d, ?_, h2⟩
      simp [List.replicate_succ, deliveries, h1]
    · subst h1; exact (full h hall).elim
    · subst h1
      obtain ⟨d, h3, h4⟩ := ih h2 hall (by simpa using hw)
      refine ⟨d, ?_, h4⟩
      simp only [List.replicate_succ, deliveries, List.mem_append]
      exact .inr h3

end Verif.Overlay
