import Verif.Props.OverlayFec

/-!
# C63, C64, C65: what is delivered and forwarded, and how often
-/
namespace Verif.Overlay
open Verif.AdnlProto Verif.Rldp

variable {c : Crypto} {f : Fec}

/-! ### C63: delivered once as long as it is remembered -/

/-- The identity of the broadcast given to the application by a step: the hash of the signed text of an
ordinary broadcast, the hash of the data of an FEC broadcast. -/
def deliveredId (c : Crypto) : Action → Out → Option Bytes
  | .ordinary _ b, o => o.delivered.map fun d => c.sha (ordinaryText c.sha (slot b d.source) d.data b.date)
  | .task _, o => o.delivered.map fun d => c.sha d.data
  | _, _ => none

/-- The identities of the broadcasts given to the application in the course of a run. -/
def deliveredIds (e : Env) (s : State c f) : List Action → List Bytes
  | [] => []
  | a :: as => (deliveredId c a (step c f e s a).2).toList ++ deliveredIds e (step c f e s a).1 as

/-- Tasks that may still deliver the broadcast. -/
def live (s : State c f) (bid : Bytes) : Nat :=
  s.transfers.countP fun t => decide (t.bid = bid ∧ t.phase = .running)

def has (s : State c f) (bid : Bytes) : Nat := if bid ∈ s.owned.keys then 1 else 0

theorem live_set_le {s : State c f} {i : Nat} {t t' : Transfer c f} (ht : s.transfers[i]? = some t)
    (hb : t'.bid = t.bid) (hp : t'.phase = .running → t.phase = .running) (bid : Bytes) :
    live { s with transfers := s.transfers.set i t' } bid ≤ live s bid := by
  show (s.transfers.set i t').countP (fun t => decide (t.bid = bid ∧ t.phase = .running)) ≤ live s bid
  obtain ⟨hi, hti⟩ := List.getElem?_eq_some_iff.mp ht
  rw [List.countP_set hi, hti]
  unfold live
  have hpos : decide (t.bid = bid ∧ t.phase = .running) = true →
      0 < s.transfers.countP (fun t => decide (t.bid = bid ∧ t.phase = .running)) := fun h =>
    List.countP_pos_iff.mpr ⟨t, List.mem_of_getElem? ht, h⟩
  by_cases h1 : decide (t'.bid = bid ∧ t'.phase = .running) = true
  · have h2 : decide (t.bid = bid ∧ t.phase = .running) = true := by
      simp only [decide_eq_true_eq] at h1 ⊢
      exact ⟨hb ▸ h1.1, hp h1.2⟩
    have := hpos h2
    rw [if_pos h1, if_pos h2]; omega
  · rw [if_neg h1]; omega

theorem live_set_lt {s : State c f} {i : Nat} {t t' : Transfer c f} (ht : s.transfers[i]? = some t)
    (hr : t.phase = .running) (hp : t'.phase ≠ .running) :
    (s.transfers.set i t').countP (fun u => decide (u.bid = t.bid ∧ u.phase = .running)) + 1 ≤
      live s t.bid := by
  obtain ⟨hi, hti⟩ := List.getElem?_eq_some_iff.mp ht
  rw [List.countP_set hi, hti]
  unfold live
  have hpos : 0 < s.transfers.countP (fun u => decide (u.bid = t.bid ∧ u.phase = .running)) :=
    List.countP_pos_iff.mpr ⟨t, List.mem_of_getElem? ht, by simp [hr]⟩
  rw [if_pos (by simp [hr]), if_neg (by simp [hp])]
  omega

theorem has_le (s s' : State c f) (bid : Bytes) : has s bid ≤ (forgotten s s').count bid + has s' bid := by
  unfold has
  by_cases h1 : bid ∈ s.owned.keys
  · by_cases h2 : bid ∈ s'.owned.keys
    · rw [if_pos h1, if_pos h2]; omega
    · have := List.count_pos_iff.mpr (mem_forgotten.mpr ⟨h1, h2⟩)
      rw [if_pos h1]; omega
  · rw [if_neg h1]; omega

theorem feed_live {s : State c f} {i : Nat} {t : Transfer c f} (ht : s.transfers[i]? = some t) (pub : c.Pub)
    (source : Bytes) (b : FecPart) (bid : Bytes) : live (feed c f s i t pub source b).1 bid ≤ live s bid := by
  unfold feed
  simp only
  split
  · refine live_set_le ht ?_ ?_ bid <;> first | rfl | exact id
  · split
    · refine live_set_le ht ?_ ?_ bid <;> first | rfl | exact id
    · split
      · refine live_set_le ht ?_ ?_ bid <;> first | rfl | exact id
      · split
        · refine live_set_le ht ?_ ?_ bid <;> first | rfl | exact id
        · refine live_set_le ht ?_ ?_ bid <;> first | rfl | exact id

theorem feed_delivered (s : State c f) (i : Nat) (t : Transfer c f) (pub : c.Pub)
    (source : Bytes) (b : FecPart) : (feed c f s i t pub source b).1.owned = s.owned := by
  unfold feed
  simp only
  split
  · rfl
  · split
    · rfl
    · split
      · rfl
      · split <;> rfl

theorem keys_put_mem {m : AMap Bytes Owned} {k : Bytes} (x : Owned) : k ∈ (m.put k x).keys := by
  by_contra h
  have := AMap.get_eq_none_iff.mpr h
  rw [AMap.get_put_self] at this
  cases this

/-- What a step adds. -/
theorem once_step {e : Env} {s : State c f} (hF : FInv s) (a : Action) (bid : Bytes) :
    (deliveredId c a (step c f e s a).2).toList.count bid + live (step c f e s a).1 bid + has s bid ≤
      (forgotten s (step c f e s a).1).count bid + has (step c f e s a).1 bid + live s bid := by
  have hh := has_le s (step c f e s a).1 bid
  have quiet : (deliveredId c a (step c f e s a).2) = none →
      live (step c f e s a).1 bid ≤ live s bid →
      (deliveredId c a (step c f e s a).2).toList.count bid + live (step c f e s a).1 bid + has s bid ≤
      (forgotten s (step c f e s a).1).count bid + has (step c f e s a).1 bid + live s bid := by
    intro h1 h2
    rw [h1]
    simp only [Option.toList_none, List.count_nil]
    omega
  cases a with
  | tick ms => exact quiet rfl (Nat.le_refl _)
  | ordinary now b =>
    have hl : live (step c f e s (.ordinary now b)).1 bid = live s bid := by
      simp only [step, receiveOrdinary]
      split
      · rfl
      · rfl
      · split <;> rfl
    cases hd : (step c f e s (.ordinary now b)).2.delivered with
    | none => exact quiet (by simp [deliveredId, hd]) (Nat.le_of_eq hl)
    | some d =>
      obtain ⟨bid', h1, h2, _, h4⟩ := delivered_ordinary hd
      obtain ⟨_, _, _, h5⟩ := check_ok h1
      have e1 : deliveredId c (.ordinary now b) (step c f e s (.ordinary now b)).2 = some bid' := by
        simp only [deliveredId, hd, Option.map_some, h5]
      rw [e1, hl]
      simp only [Option.toList_some]
      by_cases hb : bid' = bid
      · subst hb
        have h6 : has s bid' = 0 := if_neg (AMap.get_eq_none_iff.mp h2)
        have h7 : has (step c f e s (.ordinary now b)).1 bid' = 1 := by
          rw [h4]; exact if_pos (keys_put_mem _)
        rw [h6, h7]
        simp only [List.count_cons_self, List.count_nil]
        omega
      · rw [List.count_cons_of_ne (by simpa using hb)]
        simp only [List.count_nil]
        omega
  | fec now b =>
    by_cases hx : live (step c f e s (.fec now b)).1 bid ≤ live s bid
    · exact quiet rfl hx
    · have h2 : live (step c f e s (.fec now b)).1 bid ≤ live s bid + 1 ∧ has s bid = 0 ∧
          has (step c f e s (.fec now b)).1 bid = 1 := by
        revert hx
        simp only [step, receiveFec]
        split
        · exact fun hx => absurd (Nat.le_refl _) hx
        · exact fun hx => absurd (Nat.le_refl _) hx
        · split
          · exact fun hx => absurd (Nat.le_refl _) hx
          · split
            · exact fun hx => absurd (Nat.le_refl _) hx
            · next pub _ _ =>
              have hs : FInv (if (s.owned.get b.dataHash).isNone = true then
                    newTransfer c f e s b (Node.shortId c pub) else s) := by
                split
                · exact newTransfer_inv hF b _
                · exact hF
              have hl : live (if (s.owned.get b.dataHash).isNone = true then
                    newTransfer c f e s b (Node.shortId c pub) else s) bid ≤ live s bid ∨
                  (live (if (s.owned.get b.dataHash).isNone = true then
                    newTransfer c f e s b (Node.shortId c pub) else s) bid = live s bid + 1 ∧
                   has s bid = 0 ∧ has (if (s.owned.get b.dataHash).isNone = true then
                    newTransfer c f e s b (Node.shortId c pub) else s) bid = 1) := by
                split
                · next hn =>
                  by_cases hb : b.dataHash = bid
                  · subst hb
                    right
                    refine ⟨?_, ?_, ?_⟩
                    · simp [live, newTransfer]
                    · exact if_neg (AMap.get_eq_none_iff.mp (by simpa using hn))
                    · exact if_pos (keys_put_mem _)
                  · left
                    simp [live, newTransfer, hb]
                · exact .inl (Nat.le_refl _)
              generalize (if (s.owned.get b.dataHash).isNone = true then
                    newTransfer c f e s b (Node.shortId c pub) else s) = s' at hs hl ⊢
              split
              · next i hi =>
                obtain ⟨t, ht, _⟩ := hs.entry _ _ hi
                rw [ht]
                simp only
                intro hx
                have h3 := feed_live ht pub (Node.shortId c pub) b bid
                have h4 : has (feed c f s' i t pub (Node.shortId c pub) b).1 bid = has s' bid := by
                  unfold has; rw [feed_delivered]
                rw [h4]
                rcases hl with hl | ⟨hl, h5, h6⟩
                · omega
                · exact ⟨by omega, h5, h6⟩
              · intro hx
                rcases hl with hl | ⟨hl, h5, h6⟩
                · exact absurd hl hx
                · exact ⟨Nat.le_of_eq hl, h5, h6⟩
      have h3 : deliveredId c (.fec now b) (step c f e s (.fec now b)).2 = none := rfl
      rw [h3]
      simp only [Option.toList_none, List.count_nil]
      omega
  | own b =>
    refine quiet rfl ?_
    simp only [step, createOwn]
    split <;> exact Nat.le_refl _
  | task i =>
    cases hd : (step c f e s (.task i)).2.delivered with
    | none =>
      refine quiet (by simp [deliveredId, hd]) ?_
      simp only [step, taskStep]
      cases ht : s.transfers[i]? with
      | none => exact Nat.le_refl _
      | some t =>
        simp only
        split
        · exact Nat.le_refl _
        · split
          · split
            · exact Nat.le_refl _
            · refine live_set_le ht ?_ ?_ bid <;> first | rfl | (intro h; cases h)
          · split
            · refine live_set_le ht ?_ ?_ bid <;> first | rfl | (intro h; cases h)
            · refine live_set_le ht ?_ ?_ bid <;> first | rfl | exact id
            · refine live_set_le ht ?_ ?_ bid <;> first | rfl | (intro h; cases h)
    | some d =>
      obtain ⟨t, pub, b, rest, h1, h2, _, _, _, _, h7, _, t', h9, h10, h11⟩ := delivered_task hF hd
      have e1 : deliveredId c (.task i) (step c f e s (.task i)).2 = some t.bid := by
        simp only [deliveredId, hd, Option.map_some, h7]
      rw [e1]
      have hlt := live_set_lt (t' := t') h1 h2 (by rw [h10]; decide)
      have hle : (s.transfers.set i t').countP (fun u => decide (u.bid = bid ∧ u.phase = .running)) ≤
          live s bid := live_set_le (t' := t') h1 h9 (by rw [h10]; intro h; cases h) bid
      have e2 : live (step c f e s (.task i)).1 bid =
          (s.transfers.set i t').countP (fun u => decide (u.bid = bid ∧ u.phase = .running)) := by
        rw [h11]; rfl
      simp only [Option.toList_some]
      by_cases hb : t.bid = bid
      · subst hb
        simp only [List.count_cons_self, List.count_nil]
        omega
      · rw [List.count_cons_of_ne (by simpa using hb)]
        simp only [List.count_nil]
        omega
  | mark i =>
    refine quiet rfl ?_
    simp only [step, markStep]
    cases ht : s.transfers[i]? with
    | none => exact Nat.le_refl _
    | some t =>
      simp only
      split
      · exact Nat.le_refl _
      · have h1 : live { s with transfers := s.transfers.set i { t with phase := .ended } } bid ≤ live s bid :=
          live_set_le (t' := { t with phase := .ended }) ht rfl (fun h => by cases h) bid
        split
        · split
          · next u hu =>
            exact Nat.le_trans (live_set_le (t' := { u with completed := true })
              (s := { s with transfers := s.transfers.set i { t with phase := .ended } }) hu rfl id bid) h1
          · exact h1
        · exact h1
  | cleanup i =>
    refine quiet rfl ?_
    simp only [step, cleanupStep]
    split
    · exact Nat.le_refl _
    · split
      · exact Nat.le_refl _
      · split <;> exact Nat.le_refl _
  | expire i =>
    refine quiet rfl ?_
    simp only [step]
    split
    · exact Nat.le_refl _
    · split <;> exact Nat.le_refl _
  | push i =>
    refine quiet rfl ?_
    simp only [step]
    split <;> exact Nat.le_refl _
  | gcCheck => refine quiet rfl ?_; simp only [step]; split <;> exact Nat.le_refl _
  | gcPop =>
    refine quiet rfl ?_
    simp only [step]
    split
    · split <;> exact Nat.le_refl _
    · exact Nat.le_refl _
  | gcSub => refine quiet rfl ?_; simp only [step]; split <;> exact Nat.le_refl _

/-- C63: for every schedule, every broadcast (ordinary or FEC) is delivered at most once more than the
number of times it was forgotten: as long as it is remembered, it is delivered at most once. -/
theorem C63_once_while_remembered (e : Env) (as : List Action) (bid : Bytes) :
    (deliveredIds e (State.init c f) as).count bid ≤ (allForgotten e (State.init c f) as).count bid + 1 := by
  suffices h : ∀ (as : List Action) (s : State c f), FInv s →
      (deliveredIds e s as).count bid + has s bid ≤ (allForgotten e s as).count bid + 1 + live s bid by
    have h1 := h as _ FInv.init
    have h2 : live (State.init c f) bid = 0 := rfl
    omega
  intro as
  induction as with
  | nil =>
    intro s _
    have : has s bid ≤ 1 := by unfold has; split <;> omega
    simp only [deliveredIds, allForgotten, List.count_nil]
    omega
  | cons a as ih =>
    intro s hF
    have h1 := once_step (e := e) hF a bid
    have h2 := ih _ (hF.step (e := e) a)
    simp only [deliveredIds, allForgotten, List.count_append]
    omega

/-- In particular, nothing is delivered twice in a run in which nothing is forgotten. -/
theorem C63_once_if_nothing_forgotten (e : Env) (as : List Action)
    (h : allForgotten e (State.init c f) as = []) : (deliveredIds e (State.init c f) as).Nodup := by
  rw [List.nodup_iff_count_le_one]
  intro bid
  have := C63_once_while_remembered (c := c) (f := f) e as bid
  rw [h] at this
  simpa using this

/-- The same FEC broadcast received twice is delivered once. -/
example : deliveredIds sampleEnv (State.init Crypto.toy Fec.toy)
      [.fec 100 samplePart, .task 0, .fec 100 samplePart, .mark 0, .fec 100 { samplePart with seqno := 1 },
       .task 0] = [Crypto.toy.sha [7]] ∧
    allForgotten sampleEnv (State.init Crypto.toy Fec.toy)
      [.fec 100 samplePart, .task 0, .fec 100 samplePart, .mark 0, .fec 100 { samplePart with seqno := 1 },
       .task 0] = [] := by decide +kernel

/-! ### C64: only authentic broadcasts are passed on -/

/-- The broadcast received by a step is signed by the node it names as its source. -/
def Authentic (c : Crypto) (e : Env) : Action → Prop
  | .ordinary _ b => ∃ pub data, Receiver.fullId c b.src = some pub ∧ b.signature.length = 64 ∧
      (data = b.data ∨ decompress e.z b.data = some data) ∧
      c.verify pub (ordinaryText c.sha (slot b (Node.shortId c pub)) data b.date) b.signature = true
  | .fec _ b => ∃ pub, Receiver.fullId c b.src = some pub ∧
      FecSigned c b.dataHash (Node.shortId c pub) (pub, b)
  | _ => True

/-- C64, full statement: what is passed on to the neighbours is authentic. -/
def C64_full : Prop := ∀ (c : Crypto) (f : Fec) (e : Env) (as : List Action) (a : Action),
  c.Lawful → f.Lawful → e.z.Lawful →
  (step c f e (run c f e (State.init c f) as) a).2.forwarded = true → Authentic c e a

/-- Packets of FEC broadcasts are passed on before their signature is looked at. -/
theorem C64_full_false : ¬ C64_full := by
  intro h
  obtain ⟨pub, h1, h2⟩ := h Crypto.toy Fec.toy sampleEnv [] (.fec 100 forgedPart) Crypto.toy_lawful
    Fec.toy_lawful sampleEnv_lawful (by decide +kernel)
  have e1 : Receiver.fullId Crypto.toy forgedPart.src = some (9 : UInt8) := by rfl
  rw [e1] at h1
  cases h1
  exact absurd h2.2.2.2 (by decide +kernel)

/-- C64 for ordinary broadcasts. Missing: FEC broadcasts. -/
theorem C64_ordinary_partial (e : Env) (s : State c f) (now : Nat) (b : Ordinary)
    (h : (step c f e s (.ordinary now b)).2.forwarded = true) :
    Authentic c e (.ordinary now b) ∧ (step c f e s (.ordinary now b)).2.delivered ≠ none := by
  have hd : ∃ d, (step c f e s (.ordinary now b)).2.delivered = some d := by
    revert h
    simp only [step, receiveOrdinary]
    split
    · intro h; cases h
    · intro h; cases h
    · split
      · intro h; cases h
      · exact fun _ => ⟨_, rfl⟩
  obtain ⟨d, hd⟩ := hd
  obtain ⟨_, h1, _⟩ := delivered_ordinary hd
  obtain ⟨_, ⟨k, pub, h3, h4, h5, h6, h7⟩, h8, _⟩ := check_ok h1
  refine ⟨⟨pub, d.data, ?_, h6, h8, by rw [← h5]; exact h7⟩, by rw [hd]; intro hc; cases hc⟩
  rw [h3]; exact h4

example : (step Crypto.toy Fec.toy sampleEnv (State.init Crypto.toy Fec.toy)
    (.ordinary 100 sampleOrdinary)).2.forwarded = true := by decide +kernel

/-! ### C65: FEC packets are passed on once -/

/-- The FEC packet passed on by a step. -/
def passedOn : Action → Out → Option FecPart
  | .fec _ b, o => if o.forwarded then some b else none
  | _, _ => none

/-- The FEC packets passed on in the course of a run. -/
def allPassedOn (e : Env) (s : State c f) : List Action → List FecPart
  | [] => []
  | a :: as => (passedOn a (step c f e s a).2).toList ++ allPassedOn e (step c f e s a).1 as

/-- C65, full statement: every packet is passed on at most once while its broadcast is remembered. -/
def C65_full : Prop := ∀ (c : Crypto) (f : Fec) (e : Env) (as : List Action) (b : FecPart),
  c.Lawful → f.Lawful → e.z.Lawful →
  (allPassedOn e (State.init c f) as).count b ≤
    (allForgotten e (State.init c f) as).count b.dataHash + 1

/-- Packets with numbers from 256 on are passed on each time they are received, since the packet history
never refuses them (C01); two such nodes send them to each other for ever. -/
theorem C65_full_false : ¬ C65_full := by
  intro h
  have := h Crypto.toy Fec.toy sampleEnv [.fec 100 { samplePart with seqno := 300 },
    .fec 100 { samplePart with seqno := 300 }] { samplePart with seqno := 300 } Crypto.toy_lawful
    Fec.toy_lawful sampleEnv_lawful
  revert this
  decide +kernel

/-- How often: always, as long as the transfer is stored and its task has not ended. -/
theorem C65_large_numbers_always (e : Env) (s : State c f) (now : Nat) (b : FecPart) (pub : c.Pub)
    (i : Nat) (t : Transfer c f) (hd : isOutdated e b.date now = some false)
    (hk : Receiver.fullId c b.src = some pub) (hl : b.signature.length = 64)
    (ho : s.owned.get b.dataHash = some (.incoming i)) (ht : s.transfers[i]? = some t)
    (hi : t.hist.index = 0) (hs : t.source = Node.shortId c pub) (hn : 256 ≤ b.seqno)
    (hp : t.completed = true ∨ t.phase ≠ .ended) :
    (step c f e s (.fec now b)).2.forwarded = true := by
  simp only [step, receiveFec, hd, hk, hl, ho, ht, Option.isNone_some, Bool.false_eq_true, if_false,
    ne_eq, not_true]
  unfold feed
  simp only [hs, ne_eq, not_true, if_false]
  have ha := (PacketsHistory.accepts_iff t.hist hi b.seqno).mpr (.inl hn)
  cases hq : PacketsHistory.deliver t.hist b.seqno with
  | mk h r =>
    rw [hq] at ha
    simp only at ha
    subst ha
    simp only
    split
    · rfl
    · next hc =>
      rw [if_neg (by rcases hp with hp | hp <;> [exact absurd hp hc; exact hp])]

/-- Whether the number has been taken note of for the stored transfer. -/
def noted (s : State c f) (bid : Bytes) (n : Nat) : Nat :=
  match s.owned.get bid with
  | some (.incoming i) => if (s.transfers[i]?).any (fun t => PacketsHistory.bitOf t.hist n) then 1 else 0
  | _ => 0

/-- The histories never move on. -/
def Flat (s : State c f) : Prop := ∀ t ∈ s.transfers, t.hist.index = 0

theorem noted_le_one (s : State c f) (bid : Bytes) (n : Nat) : noted s bid n ≤ 1 := by
  unfold noted
  split
  · split <;> omega
  · omega

theorem noted_set {s : State c f} {i : Nat} {t t' : Transfer c f} (ht : s.transfers[i]? = some t)
    {bid : Bytes} {n : Nat}
    (h : PacketsHistory.bitOf t.hist n = true → PacketsHistory.bitOf t'.hist n = true) :
    noted s bid n ≤ noted { s with transfers := s.transfers.set i t' } bid n := by
  unfold noted
  simp only
  split
  · next j _ =>
    by_cases hij : i = j
    · subst hij
      have hlt := (List.getElem?_eq_some_iff.mp ht).1
      rw [List.getElem?_set]
      simp only [if_true, hlt, ht, Option.any_some]
      by_cases hb : PacketsHistory.bitOf t.hist n = true
      · rw [if_pos (h hb)]; split <;> omega
      · rw [if_neg hb]; omega
    · rw [List.getElem?_set]
      simp [hij]
  · omega

theorem flat_set {s : State c f} (h : Flat s) {i : Nat} {t' : Transfer c f} (h' : t'.hist.index = 0) :
    Flat { s with transfers := s.transfers.set i t' } := by
  intro u hu
  rcases mem_set hu with hu | rfl
  · exact h u hu
  · exact h'

/-- A step on a known transfer. -/
theorem feed_noted {s : State c f} (hf : Flat s) {i : Nat} {t : Transfer c f} (ht : s.transfers[i]? = some t)
    (pub : c.Pub) (source : Bytes) (b : FecPart) (hn : b.seqno < 256)
    (ho : s.owned.get b.dataHash = some (.incoming i)) (bid : Bytes) (n : Nat) (hn' : n < 256) :
    Flat (feed c f s i t pub source b).1 ∧
    (if (feed c f s i t pub source b).2.forwarded = true ∧ b.dataHash = bid ∧ b.seqno = n then 1 else 0) +
      noted s bid n ≤ noted (feed c f s i t pub source b).1 bid n := by
  have hi : t.hist.index = 0 := hf t (List.mem_of_getElem? ht)
  have hi' := PacketsHistory.deliver_index t.hist hi b.seqno
  have hbit := PacketsHistory.bitOf_deliver t.hist hi b.seqno n hn'
  have hacc := PacketsHistory.accepts_iff t.hist hi b.seqno
  rw [if_pos hn] at hbit
  unfold feed
  simp only
  split
  · refine ⟨flat_set hf hi, ?_⟩
    simp only [Bool.false_eq_true, false_and, if_false, Nat.zero_add]
    exact noted_set ht (fun h => h)
  · cases hd : PacketsHistory.deliver t.hist b.seqno with
    | mk h r =>
      rw [hd] at hi' hbit hacc
      simp only at hi' hbit hacc
      have hmono : PacketsHistory.bitOf t.hist n = true → PacketsHistory.bitOf h n = true := by
        intro hb; rw [hbit, hb]; rfl
      cases r with
      | false =>
        refine ⟨flat_set hf hi', ?_⟩
        simp only [Bool.false_eq_true, false_and, if_false, Nat.zero_add]
        exact noted_set ht hmono
      | true =>
        have hfresh : PacketsHistory.bitOf t.hist b.seqno = false := by
          rcases hacc.mp rfl with h1 | h1
          · omega
          · exact h1
        have key : ∀ t' : Transfer c f, t'.hist = h →
            (if b.dataHash = bid ∧ b.seqno = n then 1 else 0) + noted s bid n ≤
              noted { s with transfers := s.transfers.set i t' } bid n := by
          intro t' ht'
          by_cases hc : b.dataHash = bid ∧ b.seqno = n
          · obtain ⟨rfl, rfl⟩ := hc
            have e1 : noted s b.dataHash b.seqno = 0 := by
              unfold noted
              rw [ho]
              simp [ht, hfresh]
            have e2 : noted { s with transfers := s.transfers.set i t' } b.dataHash b.seqno = 1 := by
              unfold noted
              simp only [ho]
              have hlt := (List.getElem?_eq_some_iff.mp ht).1
              rw [List.getElem?_set]
              simp [hlt, ht', hbit]
            rw [e1, e2]; simp
          · rw [if_neg hc, Nat.zero_add]
            exact noted_set ht (by rw [ht']; exact hmono)
        simp only
        split
        · refine ⟨flat_set hf hi', ?_⟩
          simp only [true_and]
          exact key _ rfl
        · split
          · refine ⟨flat_set hf hi', ?_⟩
            simp only [Bool.false_eq_true, false_and, if_false, Nat.zero_add]
            exact noted_set ht hmono
          · refine ⟨flat_set hf hi', ?_⟩
            simp only [true_and]
            exact key _ rfl

theorem noted_congr {s s' : State c f} (h1 : s'.owned = s.owned) (h2 : s'.transfers = s.transfers)
    (bid : Bytes) (n : Nat) : noted s' bid n = noted s bid n := by
  unfold noted; rw [h1, h2]

theorem noted_put {s s' : State c f} {k : Bytes} (hk : s.owned.get k = none)
    (h1 : s'.owned = s.owned.put k .other) (h2 : s'.transfers = s.transfers) (bid : Bytes) (n : Nat) :
    noted s bid n ≤ noted s' bid n := by
  unfold noted
  rw [h1, h2, AMap.get_put]
  by_cases h : k = bid
  · subst h; rw [hk]; exact Nat.zero_le _
  · rw [if_neg (fun hc => h hc.symm)]

theorem passed_step {e : Env} {s : State c f} (hF : FInv s) (hf : Flat s) (a : Action)
    (ha : ∀ now b, a = .fec now b → b.seqno < 256) (b : FecPart) (hb : b.seqno < 256) :
    Flat (step c f e s a).1 ∧
    (passedOn a (step c f e s a).2).toList.count b + noted s b.dataHash b.seqno ≤
      (forgotten s (step c f e s a).1).count b.dataHash + noted (step c f e s a).1 b.dataHash b.seqno := by
  have quiet : ∀ {s' : State c f}, noted s b.dataHash b.seqno ≤ noted s' b.dataHash b.seqno →
      ([] : List FecPart).count b + noted s b.dataHash b.seqno ≤
      (forgotten s s').count b.dataHash + noted s' b.dataHash b.seqno := by
    intro s' h
    simp only [List.count_nil]
    omega
  cases a with
  | tick ms => exact ⟨hf, quiet (Nat.le_refl _)⟩
  | ordinary now b' =>
    simp only [step, receiveOrdinary]
    split
    · exact ⟨hf, quiet (Nat.le_refl _)⟩
    · exact ⟨hf, quiet (Nat.le_refl _)⟩
    · split
      · exact ⟨hf, quiet (Nat.le_refl _)⟩
      · next hk => exact ⟨hf, quiet (by apply noted_put hk <;> rfl)⟩
  | fec now b' =>
    have hb' := ha now b' rfl
    have none_case : ∀ o : Out, o.forwarded = false → passedOn (.fec now b') o = none := by
      intro o ho
      simp [passedOn, ho]
    simp only [step, receiveFec]
    split
    · exact ⟨hf, quiet (Nat.le_refl _)⟩
    · exact ⟨hf, quiet (Nat.le_refl _)⟩
    · split
      · exact ⟨hf, quiet (Nat.le_refl _)⟩
      · split
        · exact ⟨hf, quiet (Nat.le_refl _)⟩
        · next pub _ _ =>
          have hs : FInv (if (s.owned.get b'.dataHash).isNone = true then
                newTransfer c f e s b' (Node.shortId c pub) else s) := by
            split
            · exact newTransfer_inv hF b' _
            · exact hF
          have hfl : Flat (if (s.owned.get b'.dataHash).isNone = true then
                newTransfer c f e s b' (Node.shortId c pub) else s) := by
            split
            · intro t ht
              simp only [newTransfer, List.mem_append, List.mem_singleton] at ht
              rcases ht with ht | rfl
              · exact hf t ht
              · rfl
            · exact hf
          have hno : noted s b.dataHash b.seqno ≤ noted (if (s.owned.get b'.dataHash).isNone = true then
                newTransfer c f e s b' (Node.shortId c pub) else s) b.dataHash b.seqno := by
            split
            · next hnone =>
              unfold noted
              by_cases hk : b'.dataHash = b.dataHash
              · have : s.owned.get b.dataHash = none := by rw [← hk]; simpa using hnone
                rw [this]; exact Nat.zero_le _
              · have e1 : (newTransfer c f e s b' (Node.shortId c pub)).owned.get b.dataHash =
                    s.owned.get b.dataHash := AMap.get_put_ne _ _ (fun hc => hk hc.symm)
                rw [e1]
                split
                · next i hi =>
                  obtain ⟨t, ht, _⟩ := hF.entry _ _ hi
                  have hlt : i < s.transfers.length := (List.getElem?_eq_some_iff.mp ht).1
                  have e2 : (newTransfer c f e s b' (Node.shortId c pub)).transfers[i]? = s.transfers[i]? := by
                    simp only [newTransfer]
                    rw [List.getElem?_append_left hlt]
                  rw [e2]
                · exact Nat.le_refl _
            · exact Nat.le_refl _
          generalize (if (s.owned.get b'.dataHash).isNone = true then
                newTransfer c f e s b' (Node.shortId c pub) else s) = s' at hs hfl hno ⊢
          split
          · next i hi =>
            obtain ⟨t, ht, _⟩ := hs.entry _ _ hi
            rw [ht]
            simp only
            obtain ⟨h1, h2⟩ := feed_noted hfl ht pub (Node.shortId c pub) b' hb' hi b.dataHash b.seqno hb
            refine ⟨h1, ?_⟩
            have h3 : (passedOn (.fec now b') (feed c f s' i t pub (Node.shortId c pub) b').2).toList.count b ≤
                (if (feed c f s' i t pub (Node.shortId c pub) b').2.forwarded = true ∧
                  b'.dataHash = b.dataHash ∧ b'.seqno = b.seqno then 1 else 0) := by
              simp only [passedOn]
              by_cases hfw : (feed c f s' i t pub (Node.shortId c pub) b').2.forwarded = true
              · rw [if_pos hfw]
                simp only [Option.toList_some]
                by_cases hbb : b' = b
                · subst hbb
                  simp [hfw]
                · rw [List.count_cons_of_ne (by simpa using hbb)]
                  exact Nat.zero_le _
              · rw [if_neg hfw]
                simp
            omega
          · exact ⟨hfl, quiet hno⟩
  | own bid =>
    simp only [step, createOwn]
    split
    · exact ⟨hf, quiet (Nat.le_refl _)⟩
    · next hk => exact ⟨hf, quiet (by apply noted_put hk <;> rfl)⟩
  | task i =>
    simp only [step, taskStep]
    cases ht : s.transfers[i]? with
    | none => exact ⟨hf, quiet (Nat.le_refl _)⟩
    | some t =>
      have hi : t.hist.index = 0 := hf t (List.mem_of_getElem? ht)
      simp only
      split
      · exact ⟨hf, quiet (Nat.le_refl _)⟩
      · split
        · split
          · exact ⟨hf, quiet (Nat.le_refl _)⟩
          · exact ⟨flat_set hf hi, quiet (noted_set ht (fun h => h))⟩
        · split
          · exact ⟨flat_set hf hi, quiet (noted_set ht (fun h => h))⟩
          · exact ⟨flat_set hf hi, quiet (noted_set ht (fun h => h))⟩
          · exact ⟨flat_set hf hi, quiet (noted_set ht (fun h => h))⟩
  | mark i =>
    simp only [step, markStep]
    cases ht : s.transfers[i]? with
    | none => exact ⟨hf, quiet (Nat.le_refl _)⟩
    | some t =>
      have hi : t.hist.index = 0 := hf t (List.mem_of_getElem? ht)
      simp only
      split
      · exact ⟨hf, quiet (Nat.le_refl _)⟩
      · have hf2 : Flat { s with transfers := s.transfers.set i { t with phase := .ended } } :=
          flat_set (t' := { t with phase := .ended }) hf hi
        have h1 : noted s b.dataHash b.seqno ≤
            noted { s with transfers := s.transfers.set i { t with phase := .ended } } b.dataHash b.seqno :=
          noted_set (t' := { t with phase := .ended }) ht (fun h => h)
        split
        · split
          · next u hu =>
            have hu0 : u.hist.index = 0 := hf2 u (List.mem_of_getElem? hu)
            exact ⟨flat_set (t' := { u with completed := true }) hf2 hu0,
              quiet (Nat.le_trans h1 (noted_set
                (s := { s with transfers := s.transfers.set i { t with phase := .ended } })
                (t' := { u with completed := true }) hu (fun h => h)))⟩
          · exact ⟨hf2, quiet h1⟩
        · exact ⟨hf2, quiet h1⟩
  | cleanup i =>
    simp only [step, cleanupStep]
    split
    · exact ⟨hf, quiet (Nat.le_refl _)⟩
    · split
      · exact ⟨hf, quiet (Nat.le_refl _)⟩
      · split <;> exact ⟨hf, quiet (Nat.le_refl _)⟩
  | expire i =>
    simp only [step]
    split
    · exact ⟨hf, quiet (Nat.le_refl _)⟩
    · split <;> exact ⟨hf, quiet (Nat.le_refl _)⟩
  | push i => simp only [step]; split <;> exact ⟨hf, quiet (Nat.le_refl _)⟩
  | gcCheck => simp only [step]; split <;> exact ⟨hf, quiet (Nat.le_refl _)⟩
  | gcPop =>
    simp only [step]
    split
    · split
      · exact ⟨hf, quiet (Nat.le_refl _)⟩
      · next bid rest hq =>
        refine ⟨hf, ?_⟩
        simp only [passedOn, Option.toList_none, List.count_nil, Nat.zero_add]
        by_cases hk : bid = b.dataHash
        · subst hk
          by_cases hm : b.dataHash ∈ s.owned.keys
          · have h1 : b.dataHash ∈ forgotten s { s with gc := .sub, queue := rest, owned := s.owned.erase b.dataHash } := by
              refine mem_forgotten.mpr ⟨hm, ?_⟩
              simp [keys_erase]
            have h2 := List.count_pos_iff.mpr h1
            have h3 := noted_le_one s b.dataHash b.seqno
            omega
          · have h1 : noted s b.dataHash b.seqno = 0 := by
              unfold noted
              rw [AMap.get_eq_none_iff.mpr hm]
            omega
        · have h1 : noted s b.dataHash b.seqno ≤
              noted { s with gc := .sub, queue := rest, owned := s.owned.erase bid } b.dataHash b.seqno := by
            unfold noted
            simp only [AMap.get_erase]
            rw [if_neg (fun hc => hk hc.symm)]
          omega
    · exact ⟨hf, quiet (Nat.le_refl _)⟩
  | gcSub => simp only [step]; split <;> exact ⟨hf, quiet (Nat.le_refl _)⟩

/-- C65 for broadcasts of fewer than 256 packets: for every schedule in which all FEC packets have
numbers below 256, every packet is passed on at most once while its broadcast is remembered. -/
theorem C65_small_numbers_partial (e : Env) (as : List Action)
    (has : ∀ now b, .fec now b ∈ as → b.seqno < 256) (b : FecPart) :
    (allPassedOn e (State.init c f) as).count b ≤
      (allForgotten e (State.init c f) as).count b.dataHash + 1 := by
  suffices h : ∀ (as : List Action) (s : State c f), FInv s → Flat s →
      (∀ now b, .fec now b ∈ as → b.seqno < 256) → b.seqno < 256 →
      (allPassedOn e s as).count b + noted s b.dataHash b.seqno ≤
        (allForgotten e s as).count b.dataHash + 1 by
    by_cases hb : b.seqno < 256
    · have h1 := h as _ FInv.init (fun t ht => absurd ht List.not_mem_nil) has hb
      omega
    · have h0 : ∀ (as : List Action) (s : State c f), (∀ now b, .fec now b ∈ as → b.seqno < 256) →
          (allPassedOn e s as).count b = 0 := by
        intro as
        induction as with
        | nil => intro s _; rfl
        | cons a as ih =>
          intro s has
          simp only [allPassedOn, List.count_append]
          rw [ih _ (fun now b hm => has now b (List.mem_cons_of_mem _ hm))]
          cases a with
          | fec now b' =>
            simp only [passedOn]
            split
            · simp only [Option.toList_some]
              rw [List.count_cons_of_ne]
              · rfl
              · have := has now b' List.mem_cons_self
                intro hc
                subst hc
                exact hb this
            · rfl
          | _ => rfl
      rw [h0 as _ has]
      exact Nat.zero_le _
  intro as
  induction as with
  | nil =>
    intro s _ _ _ _
    have := noted_le_one s b.dataHash b.seqno
    simp only [allPassedOn, allForgotten, List.count_nil]
    omega
  | cons a as ih =>
    intro s hF hf has hb
    obtain ⟨h1, h2⟩ := passed_step (e := e) hF hf a
      (fun now b' he => has now b' (he ▸ List.mem_cons_self)) b hb
    have h3 := ih _ (hF.step (e := e) a) h1 (fun now b' hm => has now b' (List.mem_cons_of_mem _ hm)) hb
    simp only [allPassedOn, allForgotten, List.count_append]
    omega

/-- Received three times, passed on once. -/
example : allPassedOn sampleEnv (State.init Crypto.toy Fec.toy)
    [.fec 100 samplePart, .fec 100 samplePart, .task 0, .mark 0, .fec 100 samplePart] = [samplePart] := by
  decide +kernel

-- C65_large_numbers_always: part 300 of the sample transfer
example : (step Crypto.toy Fec.toy sampleEnv
    (run Crypto.toy Fec.toy sampleEnv (State.init Crypto.toy Fec.toy) [.fec 100 samplePart])
    (.fec 100 { samplePart with seqno := 300 })).2.forwarded = true := by
  have h : ((run Crypto.toy Fec.toy sampleEnv (State.init Crypto.toy Fec.toy)
      [.fec 100 samplePart]).transfers[0]?).map (fun t => decide (t.hist.index = 0 ∧
        t.source = Node.shortId Crypto.toy (5 : UInt8) ∧ t.phase ≠ .ended)) = some true := by
    decide +kernel
  obtain ⟨t, h1, h2⟩ := Option.map_eq_some_iff.mp h
  rw [decide_eq_true_eq] at h2
  exact C65_large_numbers_always sampleEnv _ 100 { samplePart with seqno := 300 } (5 : UInt8) 0 t (by decide +kernel) rfl
    (by decide +kernel) (by decide +kernel) h1 h2.1 h2.2.1 (by decide) (.inr h2.2.2)

end Verif.Overlay
